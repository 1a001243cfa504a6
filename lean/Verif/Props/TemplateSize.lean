import Verif.Props.TemplateExact
import Verif.Spec.TemplateSize
import Verif.Lemmas.Size

/-!
# C86: how long a template expansion can get
-/

namespace Verif

open Verif.Abnf Verif.Rfc Verif.Rfc6570 Verif.Tpl Verif.MaybePct

namespace TplSize

theorem blen_triplets {bs : List Nat} (h : ∀ b ∈ bs, b < 256) : blen (bs.flatMap pctUpper) = 3 * bs.length := by
  induction bs with
  | nil => rfl
  | cons b r ih =>
    rw [List.flatMap_cons, blen_append, blen_pctUpper (h b (by simp)), ih fun x hx => h x (by simp [hx]),
      List.length_cons]
    omega

theorem blen_enc1 (c : Char) : blen ((utf8 c).flatMap pctUpper) = 3 * c.utf8Size := by
  rw [blen_triplets (utf8_lt c), utf8_length_size]

theorem blen_flatMap_le {f : Char → Str} (h : ∀ c, blen (f c) ≤ 3 * c.utf8Size) (s : Str) :
    blen (s.flatMap f) ≤ 3 * blen s := by
  induction s with
  | nil => simp
  | cons c r ih =>
    rw [List.flatMap_cons, blen_append, blen_cons]
    have := h c
    omega

theorem blen_encU (S : Spec) (s : Str) : blen (encU S s) ≤ 3 * blen s := by
  refine blen_flatMap_le (fun c => ?_) s
  split
  · simp only [blen_cons, blen_nil]; omega
  · rw [blen_enc1]; omega

theorem blen_encR1 (S : Spec) (c : Char) : blen (encR1 S c) ≤ 3 * c.utf8Size := by
  unfold encR1
  split
  · simp only [blen_cons, blen_nil]; omega
  · rw [blen_enc1]; omega

theorem blen_encR1s (S : Spec) (s : Str) : blen (s.flatMap (encR1 S)) ≤ 3 * blen s :=
  blen_flatMap_le (blen_encR1 S) s

theorem blen_take (s : Str) (n : Nat) : blen (s.take n) ≤ blen s := by
  have h := congrArg blen (List.take_append_drop n s)
  rw [blen_append] at h
  omega

theorem blen_25 : blen ['%', '2', '5'] = 3 := by decide

/-- What is written for held-back text. -/
theorem flushed_le (S : Spec) (g t : Str) :
    blen ((flushed g t).flatMap (fragText S)) ≤ 3 * (blen g + blen t) := by
  unfold flushed
  rcases t with _ | ⟨a, _ | ⟨b, r⟩⟩
  · simp only [List.flatMap_cons, List.flatMap_nil, fragText, List.append_nil, blen_nil]; omega
  · have := Char.utf8Size_pos a
    have h25 := blen_25
    simp only [List.flatMap_cons, List.flatMap_nil, fragText, blen_append, blen_nil, blen_cons] at h25 ⊢
    omega
  · have h1 := blen_encR1s S (b :: r)
    have := Char.utf8Size_pos a
    have h25 := blen_25
    simp only [List.flatMap_cons, List.flatMap_nil, fragText, blen_append, blen_nil, blen_cons] at h25 h1 ⊢
    omega

theorem fragments_le (S : Spec) {dbg : Bool} {k t : Str} {d : List Str} {fs : List Frag} {p : Bool}
    (h : Fragments dbg k t d fs p) :
    blen (fs.flatMap (fragText S)) ≤ 3 * (blen k + blen t + blen d.flatten) := by
  induction h with
  | done => simp
  | doneHeld _ => have := flushed_le S; simp only [List.flatten_nil, blen_nil]; exact this _ _
  | next _ ih => simpa using ih
  | @plain k t c r s d fs p _ _ _ _ _ _ ih =>
    simp only [List.flatMap_cons, fragText, blen_append, List.flatten_cons] at ih ⊢
    have := blen_encR1s S (c :: r)
    simp only [List.flatMap_cons, blen_append] at this
    simp only [blen_nil] at ih
    omega
  | @wide k t c r d _ => have := flushed_le S k t; omega
  | againDebug _ _ => simp
  | againRelease _ _ _ ih =>
    simp only [List.flatMap_cons, fragText, List.flatMap_nil, List.nil_append, blen_nil] at ih ⊢
    omega
  | @cut k kb t x g ys t' c r d fs p _ _ _ _ e _ _ _ _ ih =>
    have e' := congrArg blen e
    have := flushed_le S (k ++ g) t'
    simp only [List.flatMap_append, blen_append, List.flatten_cons, blen_nil] at *
    omega
  | @cutWide k kb t x g ys t' c r d _ _ _ _ e _ _ =>
    have e' := congrArg blen e
    have := flushed_le S (k ++ g) t'
    simp only [blen_append, List.flatten_cons] at *
    omega
  | @stay k kb t x g ys t' d fs p _ _ _ _ e _ _ ih =>
    have e' := congrArg blen e
    simp only [blen_append, List.flatten_cons] at *
    omega
  | @char k kb t x g ys s d fs p _ _ _ _ e _ _ ih =>
    have e' := congrArg blen e
    simp only [List.flatMap_cons, fragText, blen_append, List.flatten_cons, blen_nil] at *
    omega
  | @bad t x g b s d fs p _ _ e _ _ ih =>
    have e' := congrArg blen e
    simp only [List.flatMap_cons, fragText, blen_append, List.flatten_cons, blen_nil] at *
    omega
  | @broken k kb t x g ys z b s d fs p _ _ _ _ e _ _ _ ih =>
    have e' := congrArg blen e
    simp only [List.flatMap_cons, fragText, blen_append, List.flatten_cons, blen_nil] at *
    omega
  | @ascii k y t x g b s d fs p _ _ _ _ e _ _ ih =>
    have e' := congrArg blen e
    simp only [List.flatMap_cons, fragText, blen_append, List.flatten_cons, blen_nil] at *
    omega
  | asciiPanic => simp

theorem prefixText_le (S : Spec) (dbg : Bool) : ∀ (fs : List Frag) (n : Nat) (p : Bool) (out : Str),
    prefixText S dbg n fs p = some out → blen out ≤ blen (fs.flatMap (fragText S)) := by
  intro fs
  induction fs with
  | nil =>
    intro n p out h
    cases n <;> simp only [prefixText] at h <;> split at h <;> simp at h <;> subst h <;> simp
  | cons f fs ih =>
    intro n p out h
    rcases n with _ | n
    · simp only [prefixText, Option.some.injEq] at h; subst h; simp
    · rw [List.flatMap_cons, blen_append]
      cases f with
      | char s =>
        simp only [prefixText, Option.map_eq_some_iff] at h
        obtain ⟨o, h1, rfl⟩ := h
        have := ih _ _ _ h1
        simp only [blen_append, fragText]; omega
      | stray =>
        simp only [prefixText, Option.map_eq_some_iff] at h
        obtain ⟨o, h1, rfl⟩ := h
        have := ih _ _ _ h1
        simp only [blen_append, fragText]; omega
      | invalid s =>
        simp only [prefixText, Option.map_eq_some_iff] at h
        obtain ⟨o, h1, rfl⟩ := h
        have := ih _ _ _ h1
        have := blen_take s (3 * min (n + 1) (s.length / 3))
        simp only [blen_append, fragText]; omega
      | noPct s =>
        rcases s with _ | ⟨c, r⟩
        · simp [prefixText] at h
        · have ht : blen (((c :: r).take (n + 1)).flatMap (encR1 S)) ≤ blen ((c :: r).flatMap (encR1 S)) := by
            have e := congrArg (fun s => blen (s.flatMap (encR1 S))) (List.take_append_drop (n + 1) (c :: r))
            simp only [List.flatMap_append, blen_append] at e
            omega
          simp only [prefixText] at h
          simp only [fragText]
          split at h
          · rw [Option.map_eq_some_iff] at h
            obtain ⟨o, h1, rfl⟩ := h
            have := ih _ _ _ h1
            rw [blen_append]; omega
          · split at h
            · simp at h
            · rw [Option.map_eq_some_iff] at h
              obtain ⟨o, h1, rfl⟩ := h
              have := ih _ _ _ h1
              rw [blen_append]; omega

theorem prefixPieces_le (S : Spec) (dbg : Bool) : ∀ (d : List Str) (n : Nat) (out : Str),
    prefixPieces S dbg n d = some out → blen out ≤ 3 * blen d.flatten := by
  intro d
  induction d with
  | nil => intro n out h; cases n <;> simp only [prefixPieces, Option.some.injEq] at h <;> subst h <;> simp
  | cons s d ih =>
    intro n out h
    rcases n with _ | n
    · simp only [prefixPieces, Option.some.injEq] at h; subst h; simp
    · rw [List.flatten_cons, blen_append]
      rcases s with _ | ⟨c, r⟩
      · simp only [prefixPieces] at h
        have := ih _ _ h
        omega
      · have h1 := blen_encU S ((c :: r).take (n + 1))
        have h2 := blen_take (c :: r) (n + 1)
        simp only [prefixPieces] at h
        split at h
        · rw [Option.map_eq_some_iff] at h
          obtain ⟨o, h3, rfl⟩ := h
          have := ih _ _ h3
          rw [blen_append]; omega
        · split at h
          · simp at h
          · rw [Option.map_eq_some_iff] at h
            obtain ⟨o, h3, rfl⟩ := h
            have := ih _ _ h3
            rw [blen_append]; omega

theorem member_le {S : Spec} {dbg : Bool} {o : OpRow} {d : List Str} {out : Str}
    (h : memberText S dbg o d = some out) : blen out ≤ 3 * blen d.flatten := by
  have hf := fragments_le S (fragmentsOf_spec dbg d)
  unfold memberText at h
  simp only [blen_nil, Nat.zero_add] at hf
  split at h
  · split at h
    · simp at h
    · simp only [Option.some.injEq] at h; subst h; exact hf
  · simp only [Option.some.injEq] at h; subst h; exact blen_encU S _

theorem string_le {S : Spec} {dbg : Bool} {o : OpRow} {m : Mod} {d : List Str} {out : Str}
    (h : stringText S dbg o m d = some out) : blen out ≤ 3 * blen d.flatten := by
  have hf := fragments_le S (fragmentsOf_spec dbg d)
  simp only [blen_nil, Nat.zero_add] at hf
  have key : ∀ out, (if o.reserved = true then
      if ((fragmentsOf dbg d).2 || (fragmentsOf dbg d).1.contains (.noPct [])) = true then none
      else some ((fragmentsOf dbg d).1.flatMap (fragText S))
      else some (encU S d.flatten)) = some out → blen out ≤ 3 * blen d.flatten := by
    intro out h
    split at h
    · split at h
      · simp at h
      · simp only [Option.some.injEq] at h; subst h; exact hf
    · simp only [Option.some.injEq] at h; subst h; exact blen_encU S _
  unfold stringText at h
  cases m with
  | pre ds =>
    simp only at h
    split at h
    · exact Nat.le_trans (prefixText_le S dbg _ _ _ _ h) hf
    · exact prefixPieces_le S dbg _ _ _ h
  | none => exact key _ h
  | explode => exact key _ h

/-- Sum of the lengths. -/
def total (l : List Str) : Nat := (l.map blen).sum

@[simp] theorem total_nil : total [] = 0 := rfl
@[simp] theorem total_cons (a : Str) (l : List Str) : total (a :: l) = blen a + total l := by simp [total]

theorem join_len (sep : Str) (hs : blen sep ≤ 1) (l : List Str) :
    blen (joinWith sep l) + (if l = [] then 0 else 1) ≤ total l + l.length := by
  induction l with
  | nil => simp [joinWith]
  | cons a l ih =>
    rcases l with _ | ⟨b, r⟩
    · simp [joinWith]
    · have hne : (b :: r) ≠ [] := by simp
      simp only [joinWith, blen_append, total_cons, List.length_cons, hne, if_false,
        List.cons_ne_nil] at *
      omega

theorem allSome_map {α β : Type} {f : α → Option β} (w : α → Nat) (z : β → Nat)
    (hf : ∀ a b, f a = some b → z b ≤ w a) : ∀ (l : List α) (out : List β), allSome (l.map f) = some out →
    (out.map z).sum ≤ (l.map w).sum ∧ out.length = l.length
  | [], out, h => by simp only [List.map_nil, allSome, Option.some.injEq] at h; subst h; simp
  | a :: l, out, h => by
    simp only [List.map_cons, allSome] at h
    rw [Option.bind_eq_some_iff] at h
    obtain ⟨b, h1, h2⟩ := h
    rw [Option.map_eq_some_iff] at h2
    obtain ⟨o, h3, rfl⟩ := h2
    have h4 := allSome_map w z hf l o h3
    have h5 := hf a b h1
    simp only [List.map_cons, List.sum_cons, List.length_cons]
    omega

theorem row_small (op : Option Char) : blen (row op).first ≤ 1 ∧ blen (row op).sep ≤ 1 ∧ blen (row op).ifemp ≤ 1 := by
  have h1 : ∀ c : Char, c.toNat < 128 → blen [c] ≤ 1 := by
    intro c hc; rw [blen_ascii1 hc]; omega
  rcases op with _ | c
  · refine ⟨?_, ?_, ?_⟩ <;> decide
  · unfold row
    simp only
    repeat' split
    all_goals (refine ⟨?_, ?_, ?_⟩ <;> decide)

theorem sum_add (l : List α) (f : α → Nat) (n : Nat) : (l.map fun a => f a + n).sum = (l.map f).sum + n * l.length := by
  induction l with
  | nil => simp
  | cons a l ih => simp only [List.map_cons, List.sum_cons, ih, List.length_cons, Nat.mul_succ]; omega

theorem sum_mul (l : List α) (f : α → Nat) (n : Nat) : (l.map fun a => n * f a).sum = n * (l.map f).sum := by
  induction l with
  | nil => simp
  | cons a l ih => simp only [List.map_cons, List.sum_cons, ih, Nat.mul_add]

theorem sum_add2 {α : Type} (l : List α) (f g : α → Nat) :
    (l.map fun a => f a + g a).sum = (l.map f).sum + (l.map g).sum := by
  induction l with
  | nil => rfl
  | cons a l ih => simp only [List.map_cons, List.sum_cons, ih]; omega

theorem blen_eq1 : '='.utf8Size = 1 := by decide
theorem blen_comma1 : blen [','] = 1 := by decide

/-- A list. -/
theorem list_le (S : Spec) (op : Option Char) (v : Var) (items : List Str) :
    blen (listText S (row op) v items) ≤
      3 * blen v.name + 1 + (items.map fun i => blen i + (3 * blen v.name + 2)).sum := by
  obtain ⟨-, hs, -⟩ := row_small op
  have hn := blen_encU S v.name
  rw [sum_add]
  have ht : (items.map blen).sum = total items := rfl
  have hk : items.length ≤ (3 * blen v.name + 2) * items.length := by
    conv => lhs; rw [← Nat.one_mul items.length]
    exact Nat.mul_le_mul_right _ (by omega)
  unfold listText
  split
  · split
    · rcases items with _ | ⟨i, r⟩
      · simp
      · simp only
        have hj := join_len (row op).sep hs ((v.name ++ '=' :: i) :: r.map fun i => encU S v.name ++ '=' :: i)
        have hr : total (r.map fun i => encU S v.name ++ '=' :: i) = total r + (blen (encU S v.name) + 1) * r.length := by
          unfold total
          rw [List.map_map, ← sum_add]
          congr 1
          refine List.map_congr_left fun a _ => ?_
          simp only [Function.comp, blen_append, blen_cons, blen_eq1]
          omega
        have hm : (blen (encU S v.name) + 1) * r.length ≤ (3 * blen v.name + 1) * r.length :=
          Nat.mul_le_mul_right _ (by omega)
        have hx : (3 * blen v.name + 2) * r.length = (3 * blen v.name + 1) * r.length + r.length := by
          rw [← Nat.succ_mul]
        simp only [total_cons, blen_append, blen_cons, blen_eq1, List.length_cons, List.length_map, hr,
          List.cons_ne_nil, if_false, List.map_cons, List.sum_cons, Nat.mul_succ] at hj ⊢
        have ht' : (r.map blen).sum = total r := rfl
        omega
    · have hj := join_len (row op).sep hs items
      omega
  · have hj := join_len [','] (by decide) items
    rw [blen_append]
    have : blen (if (row op).named = true then v.name ++ ['='] else []) ≤ blen v.name + 1 := by
      split
      · simp only [blen_append, blen_cons, blen_eq1, blen_nil]; omega
      · simp
    omega

/-- An associative array. -/
theorem assoc_le (S : Spec) (op : Option Char) (v : Var) (es : List (Str × Str)) :
    blen (assocText S (row op) v es) ≤
      3 * blen v.name + 1 + (es.map fun e => blen e.1 + blen e.2 + 2).sum := by
  obtain ⟨-, hs, -⟩ := row_small op
  have hn := blen_encU S v.name
  have key : ∀ (c : Char), c.utf8Size = 1 → total (es.map fun e => e.1 ++ c :: e.2) + es.length =
      (es.map fun e => blen e.1 + blen e.2 + 2).sum := by
    intro c hc
    unfold total
    rw [List.map_map]
    induction es with
    | nil => rfl
    | cons e es ih =>
      simp only [List.map_cons, List.sum_cons, Function.comp, blen_append, blen_cons, hc, List.length_cons] at ih ⊢
      omega
  unfold assocText
  split
  · have hj := join_len (row op).sep hs (es.map fun e => e.1 ++ '=' :: e.2)
    have := key '=' (by decide)
    rw [List.length_map] at hj
    omega
  · have hj := join_len [','] (by decide) (es.map fun e => e.1 ++ ',' :: e.2)
    have := key ',' (by decide)
    rw [List.length_map] at hj
    rw [blen_append]
    have : blen (if (row op).named = true then encU S v.name ++ ['='] else []) ≤ 3 * blen v.name + 1 := by
      split
      · simp only [blen_append, blen_cons, blen_eq1, blen_nil]; omega
      · simp
    omega

theorem sum_le {α : Type} {f g : α → Nat} (l : List α) (h : ∀ a, f a ≤ g a) : (l.map f).sum ≤ (l.map g).sum := by
  induction l with
  | nil => simp
  | cons a l ih => have := h a; simp only [List.map_cons, List.sum_cons]; omega

/-- One variable. -/
theorem var_le {S : Spec} {dbg : Bool} {op : Option Char} {v : Var} {val : Value} {out : Str}
    (h : varExact S dbg (row op) v val = some out) :
    blen out ≤ 3 * blen v.name + 1 + 3 * valueSize v.name val := by
  obtain ⟨-, -, he⟩ := row_small op
  cases val with
  | undefined => simp only [varExact, Option.some.injEq] at h; subst h; simp
  | string d =>
    simp only [varExact, Option.map_eq_some_iff] at h
    obtain ⟨t, h1, rfl⟩ := h
    have := string_le h1
    simp only [valueSize, bytes_eq]
    split
    · rw [blen_append]
      split
      · omega
      · rw [blen_cons, blen_eq1]; omega
    · omega
  | list items =>
    simp only [varExact] at h
    split at h
    · simp at h
    · rw [Option.map_eq_some_iff] at h
      obtain ⟨l, h1, rfl⟩ := h
      have h2 := list_le S op v l
      have h3 := allSome_map (fun d : List Str => 3 * (blen d.flatten + blen v.name + 1))
        (fun i => blen i + (3 * blen v.name + 2)) (fun a b hab => by
          have := member_le hab
          omega) items l h1
      rw [sum_mul] at h3
      have h6 : valueSize v.name (.list items) =
          (items.map fun a : List Str => blen a.flatten + blen v.name + 1).sum := by
        simp only [valueSize, bytes_eq]
      rw [h6]
      omega
  | assoc es =>
    simp only [varExact] at h
    split at h
    · simp at h
    · rw [Option.map_eq_some_iff] at h
      obtain ⟨l, h1, rfl⟩ := h
      have h2 := assoc_le S op v l
      have h3 := allSome_map (fun e : Disp × Disp => 3 * (blen e.1.flatten + blen e.2.flatten + 1))
        (fun e : Str × Str => blen e.1 + blen e.2 + 2) (fun a b hab => by
          rw [Option.bind_eq_some_iff] at hab
          obtain ⟨k, hk, hx⟩ := hab
          rw [Option.map_eq_some_iff] at hx
          obtain ⟨x, hx, rfl⟩ := hx
          have := member_le hk
          have := member_le hx
          dsimp only
          omega) es l h1
      rw [sum_mul] at h3
      have h6 : valueSize v.name (.assoc es) =
          (es.map fun e : Disp × Disp => blen e.1.flatten + blen e.2.flatten + 1).sum := by
        simp only [valueSize, bytes_eq]
      rw [h6]
      omega

theorem filter_sum {α : Type} (p : α → Bool) (f : α → Nat) (l : List α) : ((l.filter p).map f).sum ≤ (l.map f).sum := by
  induction l with
  | nil => simp
  | cons a l ih =>
    rw [List.filter_cons]
    split <;> simp only [List.map_cons, List.sum_cons] <;> omega

theorem join_ge (l : List Str) (h : l ≠ []) : total l + l.length ≤ blen (joinWith [','] l) + 1 := by
  induction l with
  | nil => exact absurd rfl h
  | cons a l ih =>
    rcases l with _ | ⟨b, r⟩
    · simp [joinWith]
    · have := ih (by simp)
      simp only [joinWith, blen_append, total_cons, List.length_cons, blen_comma1] at *
      omega

/-- An expression. -/
theorem expr_le {S : Spec} {dbg : Bool} {val : Str → Value} {op : Option Char} {vars : List Var} {out : Str}
    (hv : vars ≠ []) (h : exprExact S dbg val op vars = some out) :
    blen out ≤ 3 * (blen (Piece.expr op vars).render + (vars.map fun v => valueSize v.name (val v.name)).sum) := by
  obtain ⟨hf, hs, -⟩ := row_small op
  unfold exprExact at h
  rw [Option.map_eq_some_iff] at h
  obtain ⟨parts, h1, h2⟩ := h
  have h3 := allSome_map (fun v : Var => 3 * (blen v.render + valueSize v.name (val v.name)) + 1) blen
    (fun v t hvt => by
      have := var_le hvt
      have : blen v.name ≤ blen v.render := by unfold Var.render; rw [blen_append]; omega
      omega) _ parts h1
  have h4 := filter_sum (fun v : Var => (flat (val v.name)).defined)
    (fun v : Var => 3 * (blen v.render + valueSize v.name (val v.name)) + 1) vars
  have h4' := sum_add vars (fun v : Var => 3 * (blen v.render + valueSize v.name (val v.name))) 1
  have h5 : (vars.map fun v : Var => 3 * (blen v.render + valueSize v.name (val v.name))).sum =
      3 * (total (vars.map Var.render) + (vars.map fun v => valueSize v.name (val v.name)).sum) := by
    rw [sum_mul, total, List.map_map]
    congr 1
    exact sum_add2 vars (fun v : Var => blen v.render) (fun v => valueSize v.name (val v.name))
  have h6 := join_ge (vars.map Var.render) (by simpa using hv)
  have h7 : parts.length ≤ vars.length := by
    rw [h3.2]; exact List.length_filter_le _ _
  have h8 : blen (Piece.expr op vars).render = blen op.toList + blen (joinWith [','] (vars.map Var.render)) + 2 := by
    simp only [Piece.render, blen_cons, blen_append, blen_nil]
    have h1 : '{'.utf8Size = 1 := by decide
    have h2 : '}'.utf8Size = 1 := by decide
    omega
  rw [List.length_map] at h6
  have h9 := join_len (row op).sep hs parts
  have h10 : (parts.map blen).sum = total parts := rfl
  have h11 : blen out ≤ 1 + blen (joinWith (row op).sep parts) := by
    subst h2
    rcases parts with _ | ⟨a, r⟩
    · simp
    · simp only [blen_append]; omega
  omega

/-- A template. -/
theorem template_le {S : Spec} {dbg : Bool} {val : Str → Value} : ∀ (t : List Piece) (out : Str),
    Accepted t → expansionExact S dbg val t = some out →
    blen out ≤ 3 * (blen (text t) + ((names t).map fun n => valueSize n (val n)).sum)
  | [], out, _, h => by
    simp only [expansionExact, List.map_nil, allSome, Option.map_some, List.flatten_nil, Option.some.injEq] at h
    subst h; simp
  | p :: t, out, ha, h => by
    unfold expansionExact at h
    simp only [List.map_cons, allSome] at h
    rw [Option.map_eq_some_iff] at h
    obtain ⟨l, h1, rfl⟩ := h
    rw [Option.bind_eq_some_iff] at h1
    obtain ⟨a, h2, h3⟩ := h1
    rw [Option.map_eq_some_iff] at h3
    obtain ⟨r, h4, rfl⟩ := h3
    have ih := template_le t r.flatten (fun q hq => ha q (by simp [hq])) (by
      unfold expansionExact; rw [h4]; rfl)
    have e1 : text (p :: t) = p.render ++ text t := by simp [text]
    rw [e1, blen_append, List.flatten_cons, blen_append]
    cases p with
    | lit s =>
      simp only [pieceExact, Option.some.injEq] at h2
      subst h2
      have e2 : names (.lit s :: t) = names t := by simp [names]
      rw [e2]
      have e3 : (Piece.lit s).render = s := rfl
      rw [e3]
      omega
    | expr op vars =>
      have hb := expr_le (ha (.expr op vars) (by simp)).2.1 h2
      have e2 : names (.expr op vars :: t) = vars.map Var.name ++ names t := by simp [names]
      rw [e2, List.map_append, List.sum_append, List.map_map]
      have e3 : (vars.map ((fun n => valueSize n (val n)) ∘ Var.name)) =
          vars.map fun v => valueSize v.name (val v.name) := rfl
      rw [e3]
      omega

end TplSize

/-- **C86 (no amplification).**  If a template expands, the text has at most three times as many bytes as the
template and, for every occurrence of a variable in it, the value of the variable together have. -/
theorem C86_size (S : Spec) (dbg : Bool) (ctx : Ctx) (template out : Str) (ns : List Str)
    (ht : validate_template_str template = .ok ()) (hn : variables template = some ns)
    (h : expand_to_string S dbg ctx template = .ok out) :
    blen out ≤ 3 * (blen template + (ns.map fun n => valueSize n (ctx .expand n)).sum) := by
  obtain ⟨t, ha, rfl⟩ := C32_cover template ht
  have hn' : ns = names t := by
    obtain ⟨h1, h2⟩ := C32_variables_partial t ha
    by_cases hs : SmallLengths t
    · have := h1 hs; rw [hn] at this; cases this; rfl
    · have := h2 hs; rw [hn] at this; cases this
  subst hn'
  rw [C33_exact S dbg ctx t ha] at h
  cases hc : checkAll (fun n => flat (ctx .typecheck n)) (places 0 t) with
  | panic => rw [hc] at h; cases h
  | err k l => rw [hc] at h; cases h
  | ok u =>
    rw [hc] at h
    simp only [Res.bind] at h
    cases he : expansionExact S dbg (ctx .expand) t with
    | none => rw [he] at h; cases h
    | some o =>
      rw [he] at h
      cases h
      exact TplSize.template_le t _ ha he

/-- The factor three is reached: `{v}` with a value of `n` spaces expands to `3 n` bytes. -/
theorem C86_tight (S : Spec) (dbg : Bool) (n : Nat) :
    ∃ out, expand_to_string S dbg (fun _ _ => .string [List.replicate n ' ']) (chars! "{v}") = .ok out ∧
      blen out = 3 * n ∧ valueSize ['v'] (.string [List.replicate n ' ']) = n := by
  refine ⟨encU S (List.replicate n ' '), ?_, ?_, ?_⟩
  · have ha : Accepted [.expr none [⟨['v'], .none⟩]] := by
      intro p hp
      simp only [List.mem_cons, List.not_mem_nil, or_false] at hp
      subst hp
      refine ⟨by simp, by simp, ?_⟩
      intro v hv
      simp only [List.mem_cons, List.not_mem_nil, or_false] at hv
      subst hv
      exact ⟨v_name, trivial⟩
    have e : (chars! "{v}") = text [.expr none [⟨['v'], .none⟩]] := by decide
    rw [e, C33_exact S dbg _ _ ha]
    simp [checkAll, places, placeVars, Var.tooLong, Var.misfits, Var.hasPrefix, Res.bind, expansionExact, allSome,
      pieceExact, exprExact, flat, Val.defined, varExact, stringText, row, joinWith]
  · induction n with
    | zero => rfl
    | succ n ih =>
      simp only [encU] at ih
      rw [List.replicate_succ, encU, List.flatMap_cons, blen_append, ih]
      have : blen (if iunreserved S ' ' = true then [' '] else (utf8 ' ').flatMap pctUpper) = 3 := by
        cases S <;> decide
      omega
  · simp only [valueSize, List.flatten_cons, List.flatten_nil, List.append_nil, bytes_eq]
    induction n with
    | zero => rfl
    | succ n ih =>
      rw [List.replicate_succ, blen_cons, ih]
      have : ' '.utf8Size = 1 := by decide
      omega

/-- A template with all kinds of values: 19 bytes of template and 18 bytes of values make 40 bytes of text. -/
example : expand_to_string .uri true (fun _ n =>
      if n = ['v'] then .string [chars! "a b"] else if n = ['l'] then .list [[chars! "x/"], [chars! "y"]]
      else .assoc [([chars! "k"], [chars! "é"])])
      (chars! "/p{/v}{?l*,m*}{;m}!") = .ok (chars! "/p/a%20b?l=x%2F&l=y&k=%C3%A9;m=k,%C3%A9!") ∧
    variables (chars! "/p{/v}{?l*,m*}{;m}!") = some [['v'], ['l'], ['m'], ['m']] ∧
    blen (chars! "/p{/v}{?l*,m*}{;m}!") = 19 ∧ blen (chars! "/p/a%20b?l=x%2F&l=y&k=%C3%A9;m=k,%C3%A9!") = 40 ∧
    valueSize ['v'] (.string [chars! "a b"]) + valueSize ['l'] (.list [[chars! "x/"], [chars! "y"]]) +
      2 * valueSize ['m'] (.assoc [([chars! "k"], [chars! "é"])]) = 18 := by
  decide +kernel

end Verif
