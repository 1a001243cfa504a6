import Verif.Props.TemplateExact
import Verif.Lemmas.TemplateSafe
import Verif.Spec.TemplateComponents

/-!
# What an expression with an encoding operator writes
-/

namespace Verif

open Verif.Abnf Verif.Rfc Verif.Rfc6570 Verif.Tpl Verif.MaybePct

theorem allSome_cons {α : Type} {x : Option α} {l : List (Option α)} {r : List α}
    (h : allSome (x :: l) = some r) : ∃ a r', x = some a ∧ allSome l = some r' ∧ r = a :: r' := by
  simp only [allSome, Option.bind_eq_some_iff, Option.map_eq_some_iff] at h
  obtain ⟨a, rfl, r', h, rfl⟩ := h
  exact ⟨a, r', rfl, h, rfl⟩

theorem allSome_all {α β : Type} {f : α → Option β} {P : β → Prop} {l : List α} {r : List β}
    (h : allSome (l.map f) = some r) (hf : ∀ a ∈ l, ∀ b, f a = some b → P b) : ∀ b ∈ r, P b := by
  induction l generalizing r with
  | nil => simp [allSome] at h; subst h; simp
  | cons a l ih =>
    obtain ⟨b, r', h1, h2, rfl⟩ := allSome_cons h
    intro c hc
    rcases List.mem_cons.1 hc with rfl | hc
    · exact hf a (by simp) _ h1
    · exact ih h2 (fun a ha => hf a (by simp [ha])) c hc

theorem pc_join {p : Char → Bool} {sep : Str} {l : List Str} (hs : PC p sep) (h : ∀ x ∈ l, PC p x) :
    PC p (joinWith sep l) := by
  induction l with
  | nil => exact .nil
  | cons a l ih =>
    rw [joinWith_cons]
    refine (h a (by simp)).append ?_
    have h' : ∀ x ∈ l, PC p x := fun x hx => h x (by simp [hx])
    clear ih h
    induction l with
    | nil => exact .nil
    | cons b l ih =>
      rw [List.flatMap_cons]
      exact (hs.append (h' b (by simp))).append (ih fun x hx => h' x (by simp [hx]))

/-- The characters an expression may write after what its operator puts first. -/
def restC (S : Spec) (o : OpRow) (c : Char) : Bool := regnameC S c || o.sep.contains c

theorem restC_of_reg {S : Spec} {o : OpRow} {s : Str} (h : PC (regnameC S) s) : PC (restC S o) s :=
  h.mono fun c hc => by simp [restC, hc]

theorem reg_of_iun {S : Spec} {s : Str} (h : PC (iunreserved S) s) : PC (regnameC S) s :=
  h.mono fun c hc => by simp [regnameC, hc]

theorem pc_sub {S : Spec} {c : Char} (h : sub_delims c = true) : PC (regnameC S) [c] := by
  refine .chr ?_ (by simp [regnameC, h]) .nil
  rintro rfl
  exact absurd h (by decide)

section

variable {S : Spec} {dbg : Bool} {op : Option Char} (h1 : op ≠ some '+') (h2 : op ≠ some '#')

include h1 h2

theorem row_plain : (row op).reserved = false := by
  cases op with
  | none => rfl
  | some c =>
    have h3 : c ≠ '+' := fun e => h1 (by rw [e])
    have h4 : c ≠ '#' := fun e => h2 (by rw [e])
    simp only [row, h3, h4, if_false]
    repeat' split
    all_goals rfl

theorem pc_sep : PC (restC S (row op)) (row op).sep := by
  have key : ∀ c : Char, (row op).sep = [c] → c ≠ '%' → PC (restC S (row op)) (row op).sep := by
    intro c e hc
    rw [e]
    exact .chr hc (by simp [restC, e]) .nil
  cases op with
  | none => exact key ',' rfl (by decide)
  | some c =>
    simp only [row] at key ⊢
    repeat' split
    all_goals
      rename_i hh
      first
        | exact restC_of_reg (pc_sub (by decide))
        | skip
    · subst hh; exact key '.' (by decide) (by decide)
    · subst hh; exact key '/' (by decide) (by decide)

theorem pc_ifemp : PC (regnameC S) (row op).ifemp := by
  cases op with
  | none => exact .nil
  | some c =>
    simp only [row]
    repeat' split
    all_goals first | exact .nil | exact pc_sub (by decide)

theorem pc_member {d : List Str} {t : Str} (h : memberText S dbg (row op) d = some t) : PC (regnameC S) t := by
  unfold memberText at h
  rw [row_plain h1 h2] at h
  simp at h
  subst h
  exact reg_of_iun (pc_encU S _)

theorem pc_stringText {m : Mod} {d : List Str} {t : Str} (h : stringText S dbg (row op) m d = some t) :
    PC (regnameC S) t := by
  unfold stringText at h
  rw [row_plain h1 h2] at h
  cases m with
  | pre ds =>
    simp only [Bool.false_eq_true, if_false] at h
    rw [← truncate_exact] at h
    exact reg_of_iun (pc_truncate h).1
  | none => simp at h; subst h; exact reg_of_iun (pc_encU S _)
  | explode => simp at h; subst h; exact reg_of_iun (pc_encU S _)

theorem pc_varExact {v : Var} (hv : varnameX v.name) {val : Value} {t : Str}
    (h : varExact S dbg (row op) v val = some t) : PC (restC S (row op)) t := by
  have hname : PC (regnameC S) v.name := reg_of_iun (pc_name hv)
  have heq : PC (regnameC S) ['='] := pc_sub (by decide)
  have hcomma : PC (regnameC S) [','] := pc_sub (by decide)
  have hen : PC (regnameC S) (encU S v.name) := reg_of_iun (pc_encU S _)
  have hse := pc_sep (S := S) h1 h2
  cases val with
  | undefined => simp [varExact] at h; subst h; exact .nil
  | string d =>
    simp only [varExact, Option.map_eq_some_iff] at h
    obtain ⟨x, hx, rfl⟩ := h
    have hx := pc_stringText h1 h2 hx
    apply restC_of_reg
    split
    · refine hname.append ?_
      split
      · exact pc_ifemp h1 h2
      · exact heq.append hx
    · exact hx
  | list items =>
    simp only [varExact] at h
    split at h
    · cases h
    · rw [Option.map_eq_some_iff] at h
      obtain ⟨ts, hts, rfl⟩ := h
      have hts := allSome_all hts fun d _ b hb => pc_member h1 h2 hb
      unfold listText
      split
      · split
        · cases ts with
          | nil => exact .nil
          | cons i r =>
            simp only
            refine pc_join hse ?_
            intro x hx
            rcases List.mem_cons.1 hx with rfl | hx
            · exact restC_of_reg (hname.append (heq.append (hts i (by simp))))
            · obtain ⟨y, hy, rfl⟩ := List.mem_map.1 hx
              exact restC_of_reg (hen.append (heq.append (hts y (by simp [hy]))))
        · exact pc_join hse fun x hx => restC_of_reg (hts x hx)
      · refine restC_of_reg (PC.append ?_ (pc_join hcomma hts))
        split
        · exact hname.append heq
        · exact .nil
  | assoc entries =>
    simp only [varExact] at h
    split at h
    · cases h
    · rw [Option.map_eq_some_iff] at h
      obtain ⟨ts, hts, rfl⟩ := h
      have hts := allSome_all (P := fun e : Str × Str => PC (regnameC S) e.1 ∧ PC (regnameC S) e.2) hts
        fun e _ b hb => by
          simp only [Option.bind_eq_some_iff, Option.map_eq_some_iff] at hb
          obtain ⟨k, hk, x, hx, rfl⟩ := hb
          exact ⟨pc_member h1 h2 hk, pc_member h1 h2 hx⟩
      unfold assocText
      split
      · refine pc_join hse ?_
        intro x hx
        obtain ⟨y, hy, rfl⟩ := List.mem_map.1 hx
        exact restC_of_reg ((hts y hy).1.append (heq.append (hts y hy).2))
      · refine restC_of_reg (PC.append ?_ (pc_join hcomma ?_))
        · split
          · exact hen.append heq
          · exact .nil
        · intro x hx
          obtain ⟨y, hy, rfl⟩ := List.mem_map.1 hx
          exact (hts y hy).1.append (hcomma.append (hts y hy).2)

/-- An expression writes nothing, or what its operator puts first and encoded text. -/
theorem exprExact_form {val : Str → Value} {vars : List Var} (hv : ∀ v ∈ vars, varnameX v.name) {t : Str}
    (h : exprExact S dbg val op vars = some t) :
    t = [] ∨ ∃ y, t = (row op).first ++ y ∧ PC (restC S (row op)) y := by
  unfold exprExact at h
  rw [Option.map_eq_some_iff] at h
  obtain ⟨parts, hp, rfl⟩ := h
  have hp := allSome_all hp fun v hm b hb => pc_varExact h1 h2 (hv v (List.mem_filter.1 hm).1) hb
  cases parts with
  | nil => exact .inl rfl
  | cons a r => exact .inr ⟨_, rfl, pc_join (pc_sep h1 h2) hp⟩

end

/-! ## Templates -/

theorem expansionExact_nil (S : Spec) (dbg : Bool) (val : Str → Value) {x : Str} :
    expansionExact S dbg val [] = some x ↔ x = [] := by
  simp [expansionExact, allSome, eq_comm]

theorem expansionExact_cons (S : Spec) (dbg : Bool) (val : Str → Value) {p : Piece} {t : List Piece} {x : Str} :
    expansionExact S dbg val (p :: t) = some x ↔
      ∃ y z, pieceExact S dbg val p = some y ∧ expansionExact S dbg val t = some z ∧ x = y ++ z := by
  simp only [expansionExact, List.map_cons, allSome, Option.map_eq_some_iff, Option.bind_eq_some_iff]
  constructor
  · rintro ⟨_, ⟨y, hy, zs, hz, rfl⟩, rfl⟩
    exact ⟨y, zs.flatten, hy, ⟨zs, hz, rfl⟩, by simp⟩
  · rintro ⟨y, z, hy, ⟨zs, hz, rfl⟩, rfl⟩
    exact ⟨y :: zs, ⟨y, hy, zs, hz, rfl⟩, by simp⟩

theorem expansionExact_append (S : Spec) (dbg : Bool) (val : Str → Value) {a b : List Piece} {x : Str} :
    expansionExact S dbg val (a ++ b) = some x ↔
      ∃ y z, expansionExact S dbg val a = some y ∧ expansionExact S dbg val b = some z ∧ x = y ++ z := by
  induction a generalizing x with
  | nil => simp [expansionExact_nil]
  | cons p a ih =>
    simp only [List.cons_append, expansionExact_cons, ih]
    constructor
    · rintro ⟨y, _, hy, ⟨z, w, hz, hw, rfl⟩, rfl⟩
      exact ⟨y ++ z, w, ⟨y, z, hy, hz, rfl⟩, hw, by simp⟩
    · rintro ⟨_, w, ⟨y, z, hy, hz, rfl⟩, hw, rfl⟩
      exact ⟨y, z ++ w, hy, ⟨z, w, hz, hw, rfl⟩, by simp⟩

theorem expansionExact_literally (S : Spec) (dbg : Bool) (val : Str → Value) (s : Str) {x : Str} :
    expansionExact S dbg val (literally s) = some x ↔ x = s := by
  induction s generalizing x with
  | nil => exact expansionExact_nil S dbg val
  | cons c s ih =>
    simp only [literally, List.map_cons] at ih ⊢
    simp only [expansionExact_cons, ih, pieceExact]
    constructor
    · rintro ⟨y, z, hy, rfl, rfl⟩; cases hy; rfl
    · rintro rfl; exact ⟨_, _, rfl, rfl, rfl⟩

theorem pc_split {p q : Char → Bool} {a b : Str} (ha : PC p a) (h : PC q (a ++ b)) : PC q a ∧ PC q b := by
  induction ha with
  | nil => exact ⟨.nil, h⟩
  | chr hc _ _ ih =>
    rw [List.cons_append, PC_cons hc] at h
    exact ⟨.chr hc h.1 (ih h.2).1, (ih h.2).2⟩
  | pct h1 h2 _ ih =>
    simp only [List.cons_append] at h
    generalize he : '%' :: _ = s at h
    cases h with
    | nil => cases he
    | chr h1 _ _ => cases he; exact absurd rfl h1
    | pct h3 h4 h5 =>
      cases he
      exact ⟨.pct h1 h2 (ih h5).1, (ih h5).2⟩

theorem wf_literal {s : Str} (h : asciiLiterals s) : WF s := by
  rcases h with ⟨c, rfl, hc⟩ | h
  · refine .chr ?_ rfl .nil
    rintro rfl
    exact absurd hc (by decide)
  · obtain ⟨_, _, rfl, rfl, _, _, rfl, ⟨a, rfl, ha⟩, ⟨b, rfl, hb⟩⟩ := h
    exact .pct (by rwa [← HEXDIG_eq]) (by rwa [← HEXDIG_eq]) .nil

theorem first_char {op : Option Char} : (row op).first = [] ∨
    ∃ c, (row op).first = [c] ∧ c ≠ '%' ∧ (c = '/' ∨ c = '?' ∨ c = '#' ∨ unreserved c = true ∨ sub_delims c = true) := by
  cases op with
  | none => exact .inl rfl
  | some c =>
    simp only [row]
    repeat' split
    all_goals first
      | exact .inl rfl
      | exact .inr ⟨_, rfl, by decide, by decide⟩

theorem sep_cases {S : Spec} {op : Option Char} {c : Char} (h : c ∈ (row op).sep) :
    regnameC S c = true ∨ (row op).first = ['/'] ∧ c = '/' := by
  have hs : ∀ c, sub_delims c = true → regnameC S c = true := fun c h => by simp [regnameC, h]
  cases op with
  | none => simp [row] at h; subst h; exact .inl (hs _ (by decide))
  | some d =>
    simp only [row] at h ⊢
    repeat' split at h
    all_goals
      simp only [List.mem_singleton] at h
      subst h
      first
        | exact .inl (hs _ (by decide))
        | skip
    · left; cases S <;> decide
    · right; simp_all

/-- The expansion of a template has the characters of its sample. -/
theorem pc_expansion {S : Spec} {dbg : Bool} {val : Str → Value} {cls : Char → Bool} {t : List Piece} {x : Str}
    (hreg : ∀ c, regnameC S c = true → cls c = true) (ha : Accepted t)
    (ho : ∀ op vars, Piece.expr op vars ∈ t → op ≠ some '+' ∧ op ≠ some '#') (hs : PC cls (sample t))
    (h : expansionExact S dbg val t = some x) : PC cls x := by
  induction t generalizing x with
  | nil => rw [expansionExact_nil] at h; subst h; exact .nil
  | cons p t ih =>
    rw [expansionExact_cons] at h
    obtain ⟨y, z, hy, hz, rfl⟩ := h
    have ha' : Accepted t := fun p hp => ha p (by simp [hp])
    have ho' : ∀ op vars, Piece.expr op vars ∈ t → op ≠ some '+' ∧ op ≠ some '#' :=
      fun op vars hm => ho op vars (by simp [hm])
    have hp := ha p (by simp)
    cases p with
    | lit s =>
      simp [pieceExact] at hy
      subst hy
      obtain ⟨h1, h2⟩ := pc_split (wf_literal hp) (b := sample t) (by simpa [sample] using hs)
      exact h1.append (ih ha' ho' h2 hz)
    | expr op vars =>
      obtain ⟨o1, o2⟩ := ho op vars (by simp)
      have hw : WF ((row op).first ++ ['%', '2', 'F']) := by
        refine PC.append ?_ (.pct (by decide) (by decide) .nil)
        rcases first_char (op := op) with e | ⟨c, e, hc, _⟩ <;> rw [e]
        · exact .nil
        · exact .chr hc rfl .nil
      obtain ⟨h1, h2⟩ := pc_split hw (b := sample t) (by simpa [sample] using hs)
      refine PC.append ?_ (ih ha' ho' h2 hz)
      have hf : PC cls (row op).first := by
        rcases first_char (op := op) with e | ⟨c, e, hc, _⟩
        · rw [e]; exact .nil
        · rw [e] at h1 ⊢
          exact .chr hc ((PC_cons hc).1 h1).1 .nil
      rcases exprExact_form o1 o2 (fun v hv => (hp.2.2 v hv).1) hy with rfl | ⟨w, rfl, hw⟩
      · exact .nil
      · refine hf.append (hw.mono fun c hc => ?_)
        simp only [restC, Bool.or_eq_true, List.contains_iff_mem] at hc
        rcases hc with hc | hc
        · exact hreg c hc
        · rcases sep_cases (S := S) hc with hc | ⟨e, rfl⟩
          · exact hreg c hc
          · rw [e] at hf
            exact ((PC_cons (by decide)).1 hf).1

end Verif
