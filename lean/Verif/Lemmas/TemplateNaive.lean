import Verif.Spec.TemplateNaive
import Verif.Lemmas.TemplateExpand

/-!
# Lemmas: visitors and Rust values
-/

namespace Verif.Tpl

open Verif.Rfc6570

/-- A context that hands over a value. -/
def hand {ρ : Type} (v : Visitor ρ) : Value → ρ
  | .undefined => v.visit_undefined
  | .string d => v.visit_string d
  | .list items => v.visit_list_direct items
  | .assoc entries => v.visit_assoc_direct entries

theorem hand_type (x : Value) : hand typeVisitor x = typeOf x := by
  cases x with
  | undefined => rfl
  | string d => rfl
  | list l => cases l <;> rfl
  | assoc l => cases l <;> rfl

theorem items_all (S : Spec) (dbg : Bool) (op : Operator) (spec : VarSpec) (first : Bool) :
    ∀ (items : List Disp) (out : Str) (n : Nat),
      (valueVisitor S dbg op spec first).list.all_and_finish (⟨out, n⟩ : SeqState) items =
        (visit_items S dbg op spec first n items).map fun t =>
          (out ++ t, first && (items.isEmpty && n == 0))
  | [], out, n => by
    simp [SeqVisitor.all_and_finish, visit_items, valueVisitor, SeqState.done]
  | a :: r, out, n => by
    simp only [SeqVisitor.all_and_finish, visit_items]
    have e : (valueVisitor S dbg op spec first).list.visit (⟨out, n⟩ : SeqState) a =
      SeqState.push ⟨out, n⟩ (visit_item S dbg op spec first n a) := rfl
    rw [e]
    cases h : visit_item S dbg op spec first n a with
    | none => simp [SeqState.push]
    | some t =>
      simp only [SeqState.push, Option.bind_some]
      rw [items_all S dbg op spec first r (out ++ t) (n + 1)]
      cases visit_items S dbg op spec first (n + 1) r <;> simp

theorem entries_all (S : Spec) (dbg : Bool) (op : Operator) (spec : VarSpec) (first : Bool) :
    ∀ (items : List (Disp × Disp)) (out : Str) (n : Nat),
      (valueVisitor S dbg op spec first).assoc.all_and_finish (⟨out, n⟩ : SeqState) items =
        (visit_entries S dbg op spec first n items).map fun t =>
          (out ++ t, first && (items.isEmpty && n == 0))
  | [], out, n => by
    simp [SeqVisitor.all_and_finish, visit_entries, valueVisitor, SeqState.done]
  | a :: r, out, n => by
    simp only [SeqVisitor.all_and_finish, visit_entries]
    have e : (valueVisitor S dbg op spec first).assoc.visit (⟨out, n⟩ : SeqState) a =
      SeqState.push ⟨out, n⟩ (visit_entry S dbg op spec first n a) := rfl
    rw [e]
    cases h : visit_entry S dbg op spec first n a with
    | none => simp [SeqState.push]
    | some t =>
      simp only [SeqState.push, Option.bind_some]
      rw [entries_all S dbg op spec first r (out ++ t) (n + 1)]
      cases visit_entries S dbg op spec first (n + 1) r <;> simp

theorem hand_value (S : Spec) (dbg : Bool) (op : Operator) (spec : VarSpec) (first : Bool)
    (x : Value) : hand (valueVisitor S dbg op spec first) x = visit_value S dbg op spec first x := by
  cases x with
  | undefined => rfl
  | string d => rfl
  | list l =>
    show (valueVisitor S dbg op spec first).list.all_and_finish (⟨[], 0⟩ : SeqState) l = _
    rw [items_all]
    simp [visit_value]
  | assoc l =>
    show (valueVisitor S dbg op spec first).assoc.all_and_finish (⟨[], 0⟩ : SeqState) l = _
    rw [entries_all]
    simp [visit_value]

/-- The context calls the visitor as if it handed over a value. -/
def Hands (c : VCtx) (ctx : Ctx) : Prop := ∀ p n (ρ : Type) (v : Visitor ρ), c p n ρ v = hand v (ctx p n)

section
variable {c : VCtx} {ctx : Ctx} (h : Hands c ctx)
include h

theorem expandVarsV_eq (S : Spec) (dbg : Bool) (op : Operator) : ∀ fuel first varlist,
    expandVarsV S dbg c op fuel first varlist = expandVars S dbg ctx op fuel first varlist
  | 0, _, _ => rfl
  | fuel + 1, first, varlist => by
    rw [expandVarsV, expandVars]
    rcases varListNext varlist with _ | _ | ⟨⟨len, spec⟩, rest⟩
    · rfl
    · rfl
    · simp only [h .expand spec.name, hand_value, expandVarsV_eq S dbg op fuel]

theorem displayExpandedV_eq (S : Spec) (dbg : Bool) : ∀ fuel t,
    displayExpandedV S dbg c fuel t = displayExpanded S dbg ctx fuel t
  | 0, _ => rfl
  | fuel + 1, t => by
    rw [displayExpandedV, displayExpanded]
    rcases chunksNext t with _ | _ | ⟨⟨lit⟩ | ⟨body⟩, rest⟩
    · rfl
    · rfl
    · simp only [displayExpandedV_eq S dbg fuel]
    · simp only [displayExpandedV_eq S dbg fuel, expandExprV, expandExpr, expandVarsV_eq h]

theorem typecheckVarsV_eq : ∀ fuel pos t,
    typecheckVarsV c fuel pos t = typecheckVars ctx fuel pos t
  | 0, _, _ => rfl
  | fuel + 1, pos, t => by
    rw [typecheckVarsV, typecheckVars]
    rcases varListNext t with _ | _ | ⟨⟨len, spec⟩, rest⟩
    · rfl
    · rfl
    · simp only [h .typecheck spec.name, hand_type, typecheckVarsV_eq fuel]

theorem typecheckV_eq : ∀ fuel pos t, typecheckV c fuel pos t = typecheck ctx fuel pos t
  | 0, _, _ => rfl
  | fuel + 1, pos, t => by
    rw [typecheckV, typecheck]
    rcases chunksNext t with _ | _ | ⟨⟨lit⟩ | ⟨body⟩, rest⟩
    · rfl
    · rfl
    · simp only [typecheckV_eq fuel]
    · simp only [typecheckV_eq fuel, typecheckExprV, typecheckExpr, typecheckVarsV_eq h]
      cases decompose body <;> rfl

theorem expand_with_eq (S : Spec) (dbg : Bool) (t : Str) :
    expand_with S dbg c t = expand_to_string S dbg ctx t := by
  simp only [expand_with, expand_to_string, typecheckV_eq h, displayExpandedV_eq h]
  cases displayExpanded S dbg ctx (t.length + 1) t <;> rfl

end

/-- The value that a Rust value hands over. -/
def RustValue.value : RustValue → Value
  | .unit => .undefined
  | .none => .undefined
  | .some x => x.value
  | .ref x => x.value
  | .int i => .string (displayInt i)
  | .str s => .string [s]
  | .list items => .list items
  | .map entries => .assoc entries

theorem visit_value_hand {ρ : Type} (v : Visitor ρ) : ∀ r : RustValue, r.visit_value v = hand v r.value
  | .unit => rfl
  | .none => rfl
  | .some x => visit_value_hand v x
  | .ref x => visit_value_hand v x
  | .int _ => rfl
  | .str _ => rfl
  | .list _ => rfl
  | .map _ => rfl

def FieldVisit.value : FieldVisit → Value
  | .naive x => x.value
  | .undefined => .undefined
  | .string d => .string d
  | .listDirect items => .list items
  | .assocDirect entries => .assoc entries

theorem run_hand {ρ : Type} (v : Visitor ρ) (f : FieldVisit) : f.run v = hand v f.value := by
  cases f with
  | naive x => exact visit_value_hand v x
  | _ => rfl

def structValue : List Field → Str → Value
  | [], _ => .undefined
  | f :: r, n => if f.name = n then f.visit.value else structValue r n

theorem struct_hands : ∀ fields, Hands (structVisit fields) fun _ n => structValue fields n
  | [], _, _, _, _ => rfl
  | f :: r, p, n, ρ, v => by
    have ih := struct_hands r p n ρ v
    show (if f.name = n then f.visit.run v else structVisit r p n ρ v) =
      hand v (if f.name = n then f.visit.value else structValue r n)
    split
    · exact run_hand v _
    · exact ih

theorem simple_hands (m : Variables) : Hands (simpleVisit m) (Ctx.ofSimple m) := by
  intro p n ρ v
  simp only [simpleVisit, Ctx.ofSimple]
  rcases mapGet m n with _ | _ | _ | _ | _ <;> rfl

/-! ## Decimal texts -/

theorem digitChar_facts {n : Nat} (h : n < 10) :
    Rfc.DIGIT n.digitChar = true ∧ n.digitChar.toNat - 48 = n ∧ (n.digitChar = '0' → n = 0) := by
  have : ∀ n : Fin 10, Rfc.DIGIT n.1.digitChar = true ∧ n.1.digitChar.toNat - 48 = n.1 ∧
    (n.1.digitChar = '0' → n.1 = 0) := by decide +kernel
  exact this ⟨n, h⟩

theorem digit_digitChar {c : Char} (h : Rfc.DIGIT c = true) :
    c.toNat - 48 < 10 ∧ (c.toNat - 48).digitChar = c := by
  have hc : 48 ≤ c.toNat ∧ c.toNat ≤ 57 := by
    simp [Rfc.DIGIT, Char.le_def, UInt32.le_iff_toNat_le] at h
    exact h
  have : ∀ n : Fin 10, (n.1.digitChar).toNat = n.1 + 48 := by decide +kernel
  refine ⟨by omega, ?_⟩
  have e := this ⟨c.toNat - 48, by omega⟩
  apply Char.ext
  apply UInt32.toNat_inj.1
  show (Nat.digitChar (c.toNat - 48)).toNat = c.toNat
  rw [e]; simp; omega

theorem decimal_append (r : Str) (c : Char) : Rfc6570.decimal (r ++ [c]) = Rfc6570.decimal r * 10 + (c.toNat - 48) := by
  simp [Rfc6570.decimal]

theorem snoc_ind {P : Str → Prop} (h0 : P []) (h1 : ∀ r c, P r → P (r ++ [c])) (s : Str) : P s := by
  have : ∀ s : Str, P s.reverse := by
    intro s
    induction s with
    | nil => exact h0
    | cons c r ih => simpa using h1 _ c ih
  simpa using this s.reverse

theorem decimal_pos {s : Str} (hd : ∀ c ∈ s, Rfc.DIGIT c = true) (hn : s ≠ []) (h0 : s.head? ≠ some '0') :
    0 < Rfc6570.decimal s := by
  induction s using snoc_ind with
  | h0 => exact absurd rfl hn
  | h1 r c ih =>
    rw [decimal_append]
    by_cases hr : r = []
    · subst hr
      have := digit_digitChar (hd c (by simp))
      have : c.toNat - 48 ≠ 0 := by
        intro e
        rw [e] at this
        exact h0 (by rw [← this.2]; rfl)
      omega
    · have := ih (fun c hc => hd c (by simp [hc])) hr (by
        cases r with
        | nil => exact absurd rfl hr
        | cons a r => simpa using h0)
      omega

theorem isDecimal_toDigits (n : Nat) : IsDecimal (Nat.toDigits 10 n) n := by
  induction n using Nat.strongRecOn with
  | _ n ih =>
    rw [Nat.toDigits_eq_if (by omega)]
    split
    · rename_i h
      have f := digitChar_facts h
      refine ⟨by simp, ?_, ?_, ?_⟩
      · intro c hc
        simp at hc
        subst hc; exact f.1
      · simpa [Rfc6570.decimal] using f.2.1
      · intro e
        have e : n.digitChar = '0' := by simpa using e
        rw [e]
    · rename_i h
      have f := digitChar_facts (Nat.mod_lt n (show 10 > 0 by omega))
      obtain ⟨h1, h2, h3, h4⟩ := ih (n / 10) (by omega)
      refine ⟨by simp, ?_, ?_, ?_⟩
      · intro c hc
        rcases List.mem_append.1 hc with hc | hc
        · exact h2 c hc
        · simp at hc
          subst hc; exact f.1
      · rw [decimal_append, h3, f.2.1]; omega
      · intro e
        exfalso
        have e' : (Nat.toDigits 10 (n / 10)).head? = some '0' := by
          cases h5 : Nat.toDigits 10 (n / 10) with
          | nil => exact absurd h5 h1
          | cons a r => rw [h5] at e; simpa using e
        rw [h4 e'] at h3
        simp [Rfc6570.decimal] at h3
        omega

theorem decimal_unique {s : Str} {n : Nat} (h : IsDecimal s n) : s = Nat.toDigits 10 n := by
  obtain ⟨h1, h2, h3, h4⟩ := h
  induction s using snoc_ind generalizing n with
  | h0 => exact absurd rfl h1
  | h1 r c ih =>
    rw [decimal_append] at h3
    have hc := digit_digitChar (h2 c (by simp))
    by_cases hr : r = []
    · subst hr
      have hn : n < 10 := by simp [Rfc6570.decimal] at h3; omega
      rw [Nat.toDigits_of_lt_base hn]
      have : c.toNat - 48 = n := by simpa [Rfc6570.decimal] using h3
      rw [← this, hc.2]; rfl
    · have hd : ∀ c ∈ r, Rfc.DIGIT c = true := fun c hc => h2 c (by simp [hc])
      have h0 : r.head? ≠ some '0' := by
        intro e
        cases r with
        | nil => exact hr rfl
        | cons a r =>
          have e : a = '0' := by simpa using e
          subst e
          have := h4 rfl
          simp at this
      have hp := decimal_pos hd hr h0
      have := ih (n := Rfc6570.decimal r) hr hd rfl (fun e => absurd e h0)
      rw [Nat.toDigits_eq_if (by omega), if_neg (by omega)]
      have e1 : n / 10 = Rfc6570.decimal r := by omega
      have e2 : n % 10 = c.toNat - 48 := by omega
      rw [e1, e2, hc.2, ← this]

theorem intText_display (i : Int) : IntText (displayInt i).flatten i := by
  cases i with
  | ofNat n => exact .inl ⟨Int.natCast_nonneg n, by simpa [displayInt] using isDecimal_toDigits n⟩
  | negSucc n =>
    exact .inr ⟨Int.negSucc_lt_zero n, _, rfl, by simpa using isDecimal_toDigits (n + 1)⟩

theorem intText_unique {s : Str} {i : Int} (h : IntText s i) : s = (displayInt i).flatten := by
  rcases h with ⟨h, d⟩ | ⟨h, ds, rfl, d⟩
  · cases i with
    | ofNat n => simpa [displayInt] using decimal_unique d
    | negSucc n => omega
  · cases i with
    | ofNat n => exact absurd h (Int.not_lt.2 (Int.natCast_nonneg n))
    | negSucc n => simpa [displayInt] using decimal_unique d

theorem means_flat {v : RustValue} {x : Val} (h : Means v x) : flat v.value = x := by
  induction h with
  | int h => simp [RustValue.value, flat, intText_unique h]
  | str => simp [RustValue.value, flat]
  | some _ ih => exact ih
  | ref _ ih => exact ih
  | _ => rfl

theorem flat_means : ∀ v : RustValue, Means v (flat v.value)
  | .unit => .unit
  | .none => .none
  | .some x => .some (flat_means x)
  | .ref x => .ref (flat_means x)
  | .int i => .int (intText_display i)
  | .str s => by have := Means.str (s := s); simpa [RustValue.value, flat] using this
  | .list _ => .list
  | .map _ => .map

theorem fieldMeans_flat {f : FieldVisit} {x : Val} (h : FieldMeans f x) : flat f.value = x := by
  cases h with
  | naive h => exact means_flat h
  | _ => rfl

theorem flat_fieldMeans (f : FieldVisit) : FieldMeans f (flat f.value) := by
  cases f with
  | naive v => exact .naive (flat_means v)
  | undefined => exact .undefined
  | string => exact .string
  | listDirect => exact .list
  | assocDirect => exact .assoc

theorem name_eq (f : Field) : f.name = f.var_name.getD f.field := by
  unfold Field.name
  cases f.var_name <;> rfl

theorem structValue_found {fields pre : List Field} {f : Field} {post : List Field} {n : Str}
    (e : fields = pre ++ f :: post) (hn : f.name = n) (hp : ∀ g ∈ pre, g.name ≠ n) :
    structValue fields n = f.visit.value := by
  subst e
  induction pre with
  | nil => exact if_pos hn
  | cons a r ih =>
    rw [List.cons_append, structValue, if_neg (hp a (by simp))]
    exact ih fun g hg => hp g (by simp [hg])

theorem structValue_absent {fields : List Field} {n : Str} (hp : ∀ g ∈ fields, g.name ≠ n) :
    structValue fields n = .undefined := by
  induction fields with
  | nil => rfl
  | cons a r ih =>
    rw [structValue, if_neg (hp a (by simp))]
    exact ih fun g hg => hp g (by simp [hg])

theorem structMeans_iff {fields : List Field} {val : Str → Val} :
    StructMeans fields val ↔ ∀ n, flat (structValue fields n) = val n := by
  constructor
  · intro h n
    rcases h n with ⟨pre, f, post, e, hn, hp, hf⟩ | ⟨hp, hv⟩
    · rw [structValue_found e (by rw [name_eq]; exact hn) (by simpa only [name_eq] using hp)]
      exact fieldMeans_flat hf
    · rw [structValue_absent (by simpa only [name_eq] using hp), hv]; rfl
  · intro h n
    rw [← h n]
    clear h
    induction fields with
    | nil => exact .inr ⟨by simp, rfl⟩
    | cons a r ih =>
      by_cases ha : a.name = n
      · refine .inl ⟨[], a, r, rfl, by rw [← name_eq]; exact ha, by simp, ?_⟩
        rw [structValue, if_pos ha]
        exact flat_fieldMeans _
      · rw [structValue, if_neg ha]
        rw [name_eq] at ha
        rcases ih with ⟨pre, f, post, e, hn, hp, hf⟩ | ⟨hp, hv⟩
        · refine .inl ⟨a :: pre, f, post, by rw [e]; rfl, hn, ?_, hf⟩
          intro g hg
          rcases List.mem_cons.1 hg with rfl | hg
          · exact ha
          · exact hp g hg
        · refine .inr ⟨?_, hv⟩
          intro g hg
          rcases List.mem_cons.1 hg with rfl | hg
          · exact ha
          · exact hp g hg

end Verif.Tpl
