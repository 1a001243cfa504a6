import Verif.Model.Keys
import Verif.Props.Construct

/-!
# C73: values are keys

A `HashMap` or `BTreeMap` whose keys are values of one of the crate's types is a map from texts, in
whatever form (a `str`, a slice, an owned value) it is asked.
-/

namespace Verif.Keys

open KeySpec (Form Op)

theorem borrow_same {S : Spec} {debug : Bool} {k : TypeKind} {s : Str} (f : Form)
    (hs : try_from_str S k s = some (.ok s)) : borrowAs debug S k f s = some s := by
  have : k.validate S s = some (.ok ()) := by
    unfold try_from_str at hs
    cases h : k.validate S s with
    | none => rw [h] at hs; cases hs
    | some r =>
      rw [h] at hs
      cases r with
      | ok u => rfl
      | err e => cases hs
  cases f
  · rfl
  · simp [borrowAs, owned_as_slice, this]
  · rfl

/-- **C73** (the contract of `Borrow`): a value and what is borrowed from it have the same hash, for every
hasher, and compare in the same way. -/
theorem _root_.Verif.C73_borrow (S : Spec) (debug : Bool) (k : TypeKind) (f : Form) (σ : Type) (H : Hasher σ) (a b : Str)
    (ha : try_from_str S k a = some (.ok a)) (hb : try_from_str S k b = some (.ok b)) :
    ∃ x y, borrowAs debug S k f a = some x ∧ borrowAs debug S k f b = some y ∧
      formHash H f x = formHash H .owned a ∧
      (formEq f x y = true ↔ a = b) ∧ formEq .owned a b = formEq f x y ∧
      formCmp f x y = codePointCmp a b ∧ formCmp .owned a b = formCmp f x y := by
  refine ⟨a, b, borrow_same f ha, borrow_same f hb, ?_, ?_, ?_, ?_, ?_⟩
  · cases f <;> rfl
  · cases f <;> exact (C38_order a b b).1
  · cases f <;> rfl
  · cases f <;> exact C38_cmp a b
  · cases f <;> rfl

theorem formEq_iff (f : Form) (a b : Str) : formEq f a b = true ↔ a = b := by
  cases f <;> exact (C38_order a b b).1

theorem formHash_eq {σ : Type} (H : Hasher σ) (f : Form) (s : Str) : formHash H f s = formHash H .owned s := by
  cases f <;> rfl

theorem formCmp_eq (f : Form) (a b : Str) : formCmp f a b = str_cmp a b := by cases f <;> rfl

/-! ### `HashMap` -/

/-- The map that a table stands for. -/
def hashAbs {V : Type} (m : List (HashEntry V)) (t : Str) : Option V :=
  (m.find? (fun e => e.key = t)).map HashEntry.value

structure HashInv {V σ : Type} (S : Spec) (k : TypeKind) (H : Hasher σ) (m : List (HashEntry V)) : Prop where
  hash : ∀ e ∈ m, e.hash = formHash H .owned e.key
  valid : ∀ e ∈ m, try_from_str S k e.key = some (.ok e.key)
  distinct : m.Pairwise (fun a b => a.key ≠ b.key)

theorem hashLocate_spec {V σ : Type} {debug : Bool} {S : Spec} {k : TypeKind} {H : Hasher σ}
    {probe : Nat → Nat → Bool} (hp : ∀ h, probe h h = true) (f : Form) (q : Str) {m : List (HashEntry V)}
    (hi : HashInv S k H m) :
    (hashLocate debug S k (probe (formHash H f q)) f q m = some none ∧ ∀ e ∈ m, e.key ≠ q) ∨
    (∃ a e b, m = a ++ e :: b ∧ e.key = q ∧
      hashLocate debug S k (probe (formHash H f q)) f q m = some (some a.length)) := by
  induction m with
  | nil => exact .inl ⟨rfl, by simp⟩
  | cons e r ih =>
    have hir : HashInv S k H r := ⟨fun x hx => hi.hash x (List.mem_cons_of_mem _ hx),
      fun x hx => hi.valid x (List.mem_cons_of_mem _ hx), (List.pairwise_cons.1 hi.distinct).2⟩
    unfold hashLocate
    rw [borrow_same f (hi.valid e (by simp)), Option.bind_some]
    by_cases hq : e.key = q
    · right
      refine ⟨[], e, r, rfl, hq, ?_⟩
      rw [if_pos (by rw [hi.hash e (by simp), hq, formHash_eq H f]; exact hp _),
        if_pos ((formEq_iff f q e.key).2 hq.symm)]
      rfl
    · have hne : formEq f q e.key ≠ true := fun h => hq ((formEq_iff f q e.key).1 h).symm
      rw [if_neg hne]
      simp only [ite_self]
      rcases ih hir with ⟨h1, h2⟩ | ⟨a, e', b, h1, h2, h3⟩
      · left
        rw [h1]
        refine ⟨rfl, ?_⟩
        intro x hx
        rcases List.mem_cons.1 hx with rfl | hx
        · exact hq
        · exact h2 x hx
      · right
        refine ⟨e :: a, e', b, by rw [h1]; rfl, h2, ?_⟩
        rw [h3]; rfl

theorem hashAbs_none {V : Type} {m : List (HashEntry V)} {q : Str} (h : ∀ e ∈ m, e.key ≠ q) :
    hashAbs m q = none := by
  unfold hashAbs
  rw [List.find?_eq_none.2 (by simpa using h)]
  rfl

theorem hashAbs_append {V : Type} (a b : List (HashEntry V)) (t : Str) :
    hashAbs (a ++ b) t = (hashAbs a t).or (hashAbs b t) := by
  unfold hashAbs
  rw [List.find?_append]
  cases List.find? (fun e => decide (e.key = t)) a <;> rfl

theorem hashAbs_cons {V : Type} (e : HashEntry V) (b : List (HashEntry V)) (t : Str) :
    hashAbs (e :: b) t = if e.key = t then some e.value else hashAbs b t := by
  unfold hashAbs
  rw [List.find?_cons]
  by_cases h : e.key = t <;> simp [h]

theorem distinct_split {V : Type} {a b : List (HashEntry V)} {e : HashEntry V}
    (h : (a ++ e :: b).Pairwise (fun x y => x.key ≠ y.key)) :
    (∀ x ∈ a, x.key ≠ e.key) ∧ (∀ x ∈ b, x.key ≠ e.key) ∧ (a ++ b).Pairwise (fun x y => x.key ≠ y.key) := by
  rw [List.pairwise_append] at h
  obtain ⟨h1, h2, h3⟩ := h
  rw [List.pairwise_cons] at h2
  refine ⟨fun x hx => h3 x hx e (by simp), fun x hx => (h2.1 x hx).symm, ?_⟩
  rw [List.pairwise_append]
  exact ⟨h1, h2.2, fun x hx y hy => h3 x hx y (List.mem_cons_of_mem _ hy)⟩

theorem hashStep_spec {V σ : Type} {debug : Bool} {S : Spec} {k : TypeKind} {H : Hasher σ}
    {probe : Nat → Nat → Bool} (hp : ∀ h, probe h h = true) {m : List (HashEntry V)} (hi : HashInv S k H m)
    (o : Op V) (ho : ∀ s v, o = .insert s v → try_from_str S k s = some (.ok s)) :
    ∃ m', hashStep debug S k H probe m o = some (m', (KeySpec.step (hashAbs m) o).2) ∧ HashInv S k H m' ∧
      hashAbs m' = (KeySpec.step (hashAbs m) o).1 := by
  cases o with
  | get f s =>
    refine ⟨m, ?_, hi, rfl⟩
    unfold hashStep
    rcases hashLocate_spec (debug := debug) hp f s hi with ⟨h1, h2⟩ | ⟨a, e, b, h1, h2, h3⟩
    · simp only [h1, Option.bind_some, KeySpec.step, hashAbs_none h2]
    · simp only [h3, Option.bind_some, KeySpec.step]
      subst h1
      obtain ⟨k1, _, _⟩ := distinct_split hi.distinct
      rw [hashAbs_append, hashAbs_none (by rw [← h2]; exact k1), hashAbs_cons, if_pos h2]
      simp
  | remove f s =>
    unfold hashStep
    rcases hashLocate_spec (debug := debug) hp f s hi with ⟨h1, h2⟩ | ⟨a, e, b, h1, h2, h3⟩
    · refine ⟨m, ?_, hi, ?_⟩
      · simp only [h1, Option.bind_some, KeySpec.step, hashAbs_none h2]
      · funext t
        simp only [KeySpec.step]
        split
        · rename_i ht; rw [ht]; exact hashAbs_none h2
        · rfl
    · subst h1
      obtain ⟨k1, k2, k3⟩ := distinct_split hi.distinct
      rw [h2] at k1 k2
      refine ⟨a ++ b, ?_, ⟨?_, ?_, k3⟩, ?_⟩
      · simp only [h3, Option.bind_some, KeySpec.step]
        rw [hashAbs_append, hashAbs_none k1, hashAbs_cons, if_pos h2]
        simp [List.eraseIdx_append_of_length_le]
      · intro x hx; exact hi.hash x (by simp only [List.mem_append, List.mem_cons] at hx ⊢; rcases hx with h | h <;> simp [h])
      · intro x hx; exact hi.valid x (by simp only [List.mem_append, List.mem_cons] at hx ⊢; rcases hx with h | h <;> simp [h])
      · funext t
        simp only [KeySpec.step]
        rw [hashAbs_append, hashAbs_append, hashAbs_cons]
        by_cases ht : t = s
        · rw [if_pos ht, ht, hashAbs_none k1, hashAbs_none k2]; rfl
        · rw [if_neg ht, if_neg (by rw [h2]; exact fun h => ht h.symm)]
  | insert s v =>
    have hs := ho s v rfl
    unfold hashStep
    rcases hashLocate_spec (debug := debug) hp .owned s hi with ⟨h1, h2⟩ | ⟨a, e, b, h1, h2, h3⟩
    · refine ⟨m ++ [⟨formHash H .owned s, s, v⟩], ?_, ⟨?_, ?_, ?_⟩, ?_⟩
      · simp only [h1, Option.bind_some, KeySpec.step, hashAbs_none h2]
      · intro x hx
        rcases List.mem_append.1 hx with hx | hx
        · exact hi.hash x hx
        · rw [List.mem_singleton.1 hx]
      · intro x hx
        rcases List.mem_append.1 hx with hx | hx
        · exact hi.valid x hx
        · rw [List.mem_singleton.1 hx]; exact hs
      · rw [List.pairwise_append]
        refine ⟨hi.distinct, by simp, ?_⟩
        intro x hx y hy
        rw [List.mem_singleton.1 hy]
        exact h2 x hx
      · funext t
        simp only [KeySpec.step]
        rw [hashAbs_append, hashAbs_cons]
        by_cases ht : t = s
        · rw [if_pos ht, ht, hashAbs_none h2, if_pos rfl]; rfl
        · rw [if_neg ht, if_neg (fun h => ht h.symm)]
          cases hashAbs m t <;> rfl
    · subst h1
      obtain ⟨k1, k2, k3⟩ := distinct_split hi.distinct
      refine ⟨a ++ { e with value := v } :: b, ?_, ⟨?_, ?_, ?_⟩, ?_⟩
      · simp only [h3, Option.bind_some, KeySpec.step]
        rw [hashAbs_append, hashAbs_none (by rw [← h2]; exact k1), hashAbs_cons, if_pos h2]
        simp
      · intro x hx
        rcases List.mem_append.1 hx with hx | hx
        · exact hi.hash x (by simp [hx])
        · rcases List.mem_cons.1 hx with rfl | hx
          · exact hi.hash e (by simp)
          · exact hi.hash x (by simp [hx])
      · intro x hx
        rcases List.mem_append.1 hx with hx | hx
        · exact hi.valid x (by simp [hx])
        · rcases List.mem_cons.1 hx with rfl | hx
          · exact hi.valid e (by simp)
          · exact hi.valid x (by simp [hx])
      · have := hi.distinct
        rw [List.pairwise_append, List.pairwise_cons] at this ⊢
        refine ⟨this.1, ⟨this.2.1.1, this.2.1.2⟩, ?_⟩
        intro x hx y hy
        rcases List.mem_cons.1 hy with rfl | hy
        · exact this.2.2 x hx e (by simp)
        · exact this.2.2 x hx y (by simp [hy])
      · funext t
        simp only [KeySpec.step]
        rw [hashAbs_append, hashAbs_append, hashAbs_cons, hashAbs_cons]
        by_cases ht : t = s
        · rw [if_pos ht, ht, hashAbs_none (by rw [← h2]; exact k1), if_pos h2]; rfl
        · rw [if_neg ht, if_neg (by rw [h2]; exact fun h => ht h.symm),
            if_neg (by rw [h2]; exact fun h => ht h.symm)]

/-- **C73** (`HashMap`, `HashSet`): for every hasher, every way to probe the table and every history of
calls, in any of the forms, no call panics and every call returns what a map from texts returns. -/
theorem _root_.Verif.C73_hash_map (S : Spec) (debug : Bool) (k : TypeKind) (V σ : Type) (H : Hasher σ)
    (probe : Nat → Nat → Bool) (hp : ∀ h, probe h h = true) (ops : List (Op V))
    (ho : ∀ s v, .insert s v ∈ ops → try_from_str S k s = some (.ok s)) :
    ∃ m, hashRun debug S k H probe [] ops = some (m, (KeySpec.run (fun _ => none) ops).2) ∧
      (m.map HashEntry.key).Nodup ∧
      ∀ t v, (∃ e ∈ m, e.key = t ∧ e.value = v) ↔ (KeySpec.run (fun _ => none) ops).1 t = some v := by
  have key : ∀ (ops : List (Op V)) (m : List (HashEntry V)), HashInv S k H m →
      (∀ s v, .insert s v ∈ ops → try_from_str S k s = some (.ok s)) →
      ∃ m', hashRun debug S k H probe m ops = some (m', (KeySpec.run (hashAbs m) ops).2) ∧ HashInv S k H m' ∧
        hashAbs m' = (KeySpec.run (hashAbs m) ops).1 := by
    intro ops
    induction ops with
    | nil => intro m hm _; exact ⟨m, rfl, hm, rfl⟩
    | cons o r ih =>
      intro m hm h
      obtain ⟨m1, e1, i1, a1⟩ := hashStep_spec (debug := debug) hp hm o
        (fun s v e => h s v (by rw [e]; simp))
      obtain ⟨m2, e2, i2, a2⟩ := ih m1 i1 (fun s v hm => h s v (List.mem_cons_of_mem _ hm))
      refine ⟨m2, ?_, i2, ?_⟩
      · simp only [hashRun, e1, Option.bind_some, e2, Option.map_some, KeySpec.run, a1]
      · rw [a2, a1]; rfl
  obtain ⟨m, e, i, a⟩ := key ops [] ⟨by simp, by simp, .nil⟩ ho
  have h0 : hashAbs ([] : List (HashEntry V)) = fun _ => none := rfl
  rw [h0] at e a
  refine ⟨m, e, ?_, ?_⟩
  · unfold List.Nodup
    rw [List.pairwise_map]
    exact i.distinct
  · intro t v
    rw [← a]
    constructor
    · rintro ⟨x, hx, hk, hv⟩
      obtain ⟨p, q, rfl⟩ := List.append_of_mem hx
      obtain ⟨k1, _, _⟩ := distinct_split i.distinct
      rw [hashAbs_append, hashAbs_none (by rw [← hk]; exact k1), hashAbs_cons, if_pos hk, hv]
      rfl
    · intro h
      unfold hashAbs at h
      cases hf : m.find? (fun e => decide (e.key = t)) with
      | none => rw [hf] at h; cases h
      | some x =>
        rw [hf] at h
        exact ⟨x, List.mem_of_find?_eq_some hf, by simpa using List.find?_some hf, by simpa using h⟩

/-! ### `BTreeMap` -/

/-- The map that a sorted list stands for. -/
def treeAbs {V : Type} (m : List (Str × V)) (t : Str) : Option V := (m.find? (fun e => e.1 = t)).map Prod.snd

structure TreeInv {V : Type} (S : Spec) (k : TypeKind) (m : List (Str × V)) : Prop where
  valid : ∀ e ∈ m, try_from_str S k e.1 = some (.ok e.1)
  sorted : m.Pairwise (fun a b => str_cmp a.1 b.1 = .lt)

theorem cmp_lt_ne {a b : Str} (h : str_cmp a b = .lt) : a ≠ b := by
  intro e
  rw [(C38_order a b b).2.1.2 e] at h
  cases h

theorem cmp_gt {a b : Str} : str_cmp a b = .gt ↔ str_cmp b a = .lt := by
  rw [(C38_order a b b).2.2.1]
  cases str_cmp b a <;> simp [Ordering.swap]

theorem treeLocate_spec {V : Type} {debug : Bool} {S : Spec} {k : TypeKind} (f : Form) (q : Str)
    {m : List (Str × V)} (hi : TreeInv S k m) :
    ∃ a b, m = a ++ b ∧ (∀ x ∈ a, str_cmp x.1 q = .lt) ∧
      ((∃ e b', b = e :: b' ∧ e.1 = q ∧ treeLocate debug S k f q m = some (a.length, true)) ∨
       ((∀ x ∈ b, str_cmp q x.1 = .lt) ∧ treeLocate debug S k f q m = some (a.length, false))) := by
  induction m with
  | nil => exact ⟨[], [], rfl, by simp, .inr ⟨by simp, rfl⟩⟩
  | cons e r ih =>
    obtain ⟨hs, hr⟩ := List.pairwise_cons.1 hi.sorted
    have hir : TreeInv S k r := ⟨fun x hx => hi.valid x (List.mem_cons_of_mem _ hx), hr⟩
    unfold treeLocate
    rw [borrow_same f (hi.valid e (by simp)), Option.bind_some, formCmp_eq]
    cases hc : str_cmp q e.1 with
    | eq =>
      refine ⟨[], e :: r, rfl, by simp, .inl ⟨e, r, rfl, ((C38_order q e.1 q).2.1.1 hc).symm, rfl⟩⟩
    | lt =>
      refine ⟨[], e :: r, rfl, by simp, .inr ⟨?_, rfl⟩⟩
      intro x hx
      rcases List.mem_cons.1 hx with rfl | hx
      · exact hc
      · exact (C38_order q e.1 x.1).2.2.2 hc (hs x hx)
    | gt =>
      have hlt := cmp_gt.1 hc
      obtain ⟨a, b, h1, h2, h3⟩ := ih hir
      refine ⟨e :: a, b, by rw [h1]; rfl, ?_, ?_⟩
      · intro x hx
        rcases List.mem_cons.1 hx with rfl | hx
        · exact hlt
        · exact h2 x hx
      · rcases h3 with ⟨e', b', h4, h5, h6⟩ | ⟨h4, h6⟩
        · exact .inl ⟨e', b', h4, h5, by simp only [h6]; rfl⟩
        · exact .inr ⟨h4, by simp only [h6]; rfl⟩

theorem treeAbs_none {V : Type} {m : List (Str × V)} {q : Str} (h : ∀ e ∈ m, e.1 ≠ q) : treeAbs m q = none := by
  unfold treeAbs
  rw [List.find?_eq_none.2 (by intro x hx; simpa using h x hx)]
  rfl

theorem treeAbs_append {V : Type} (a b : List (Str × V)) (t : Str) :
    treeAbs (a ++ b) t = (treeAbs a t).or (treeAbs b t) := by
  unfold treeAbs
  rw [List.find?_append]
  cases List.find? (fun e => decide (e.1 = t)) a <;> rfl

theorem treeAbs_cons {V : Type} (e : Str × V) (b : List (Str × V)) (t : Str) :
    treeAbs (e :: b) t = if e.1 = t then some e.2 else treeAbs b t := by
  unfold treeAbs
  rw [List.find?_cons]
  by_cases h : e.1 = t <;> simp [h]

theorem treeStep_spec {V : Type} {debug : Bool} {S : Spec} {k : TypeKind} {m : List (Str × V)}
    (hi : TreeInv S k m) (o : Op V) (ho : ∀ s v, o = .insert s v → try_from_str S k s = some (.ok s)) :
    ∃ m', treeStep debug S k m o = some (m', (KeySpec.step (treeAbs m) o).2) ∧ TreeInv S k m' ∧
      treeAbs m' = (KeySpec.step (treeAbs m) o).1 := by
  have none_a : ∀ {a : List (Str × V)} {s : Str}, (∀ x ∈ a, str_cmp x.1 s = .lt) → treeAbs a s = none :=
    fun h => treeAbs_none fun x hx => cmp_lt_ne (h x hx)
  have none_b : ∀ {a : List (Str × V)} {s : Str}, (∀ x ∈ a, str_cmp s x.1 = .lt) → treeAbs a s = none :=
    fun h => treeAbs_none fun x hx => (cmp_lt_ne (h x hx)).symm
  cases o with
  | get f s =>
    refine ⟨m, ?_, hi, rfl⟩
    unfold treeStep
    obtain ⟨a, b, rfl, h2, ⟨e, b', rfl, h4, h5⟩ | ⟨h4, h5⟩⟩ := treeLocate_spec (debug := debug) f s hi
    · simp only [h5, Option.map_some, KeySpec.step]
      rw [treeAbs_append, none_a h2, treeAbs_cons, if_pos h4]
      simp
    · simp only [h5, Option.map_some, KeySpec.step]
      rw [treeAbs_append, none_a h2, none_b h4]
      simp
  | remove f s =>
    unfold treeStep
    obtain ⟨a, b, rfl, h2, ⟨e, b', rfl, h4, h5⟩ | ⟨h4, h5⟩⟩ := treeLocate_spec (debug := debug) f s hi
    · have hs := hi.sorted
      rw [List.pairwise_append, List.pairwise_cons] at hs
      refine ⟨a ++ b', ?_, ⟨?_, ?_⟩, ?_⟩
      · simp only [h5, Option.map_some, KeySpec.step]
        rw [treeAbs_append, none_a h2, treeAbs_cons, if_pos h4]
        simp [List.eraseIdx_append_of_length_le]
      · intro x hx
        exact hi.valid x (by rcases List.mem_append.1 hx with h | h <;> simp [h])
      · rw [List.pairwise_append]
        exact ⟨hs.1, hs.2.1.2, fun x hx y hy => hs.2.2 x hx y (by simp [hy])⟩
      · funext t
        simp only [KeySpec.step]
        rw [treeAbs_append, treeAbs_append, treeAbs_cons]
        by_cases ht : t = s
        · rw [if_pos ht, ht, none_a h2, none_b (by rw [← h4]; exact hs.2.1.1)]; rfl
        · rw [if_neg ht, if_neg (by rw [h4]; exact fun h => ht h.symm)]
    · refine ⟨a ++ b, ?_, hi, ?_⟩
      · simp only [h5, Option.map_some, KeySpec.step]
        rw [treeAbs_append, none_a h2, none_b h4]
        simp
      · funext t
        simp only [KeySpec.step]
        split
        · rename_i ht; rw [ht, treeAbs_append, none_a h2, none_b h4]; rfl
        · rfl
  | insert s v =>
    have hv := ho s v rfl
    unfold treeStep
    obtain ⟨a, b, rfl, h2, ⟨e, b', rfl, h4, h5⟩ | ⟨h4, h5⟩⟩ := treeLocate_spec (debug := debug) .owned s hi
    · have hs := hi.sorted
      rw [List.pairwise_append, List.pairwise_cons] at hs
      refine ⟨a ++ (e.1, v) :: b', ?_, ⟨?_, ?_⟩, ?_⟩
      · simp only [h5, Option.bind_some, KeySpec.step]
        rw [treeAbs_append, none_a h2, treeAbs_cons, if_pos h4]
        simp
      · intro x hx
        rcases List.mem_append.1 hx with hx | hx
        · exact hi.valid x (by simp [hx])
        · rcases List.mem_cons.1 hx with rfl | hx
          · exact hi.valid e (by simp)
          · exact hi.valid x (by simp [hx])
      · rw [List.pairwise_append, List.pairwise_cons]
        refine ⟨hs.1, ⟨hs.2.1.1, hs.2.1.2⟩, ?_⟩
        intro x hx y hy
        rcases List.mem_cons.1 hy with rfl | hy
        · exact hs.2.2 x hx e (by simp)
        · exact hs.2.2 x hx y (by simp [hy])
      · funext t
        simp only [KeySpec.step]
        rw [treeAbs_append, treeAbs_append, treeAbs_cons, treeAbs_cons]
        by_cases ht : t = s
        · rw [if_pos ht, ht, none_a h2, if_pos h4]; rfl
        · rw [if_neg ht, if_neg (by rw [h4]; exact fun h => ht h.symm),
            if_neg (by rw [h4]; exact fun h => ht h.symm)]
    · have hs := hi.sorted
      rw [List.pairwise_append] at hs
      refine ⟨a ++ (s, v) :: b, ?_, ⟨?_, ?_⟩, ?_⟩
      · simp only [h5, Option.bind_some, KeySpec.step]
        rw [treeAbs_append, none_a h2, none_b h4]
        simp
      · intro x hx
        rcases List.mem_append.1 hx with hx | hx
        · exact hi.valid x (by simp [hx])
        · rcases List.mem_cons.1 hx with rfl | hx
          · exact hv
          · exact hi.valid x (by simp [hx])
      · rw [List.pairwise_append, List.pairwise_cons]
        refine ⟨hs.1, ⟨h4, hs.2.1⟩, ?_⟩
        intro x hx y hy
        rcases List.mem_cons.1 hy with rfl | hy
        · exact h2 x hx
        · exact hs.2.2 x hx y hy
      · funext t
        simp only [KeySpec.step]
        rw [treeAbs_append, treeAbs_append, treeAbs_cons]
        by_cases ht : t = s
        · rw [if_pos ht, ht, none_a h2, if_pos rfl]; rfl
        · rw [if_neg ht, if_neg (fun h => ht h.symm)]

/-- **C73** (`BTreeMap`, `BTreeSet`): for every history of calls, in any of the forms, no call panics and
every call returns what a map from texts returns; the entries are in the order of code points. -/
theorem _root_.Verif.C73_tree_map (S : Spec) (debug : Bool) (k : TypeKind) (V : Type) (ops : List (Op V))
    (ho : ∀ s v, .insert s v ∈ ops → try_from_str S k s = some (.ok s)) :
    ∃ m, treeRun debug S k [] ops = some (m, (KeySpec.run (fun _ => none) ops).2) ∧
      m.Pairwise (fun a b => codePointCmp a.1 b.1 = .lt) ∧
      ∀ t v, (t, v) ∈ m ↔ (KeySpec.run (fun _ => none) ops).1 t = some v := by
  have key : ∀ (ops : List (Op V)) (m : List (Str × V)), TreeInv S k m →
      (∀ s v, .insert s v ∈ ops → try_from_str S k s = some (.ok s)) →
      ∃ m', treeRun debug S k m ops = some (m', (KeySpec.run (treeAbs m) ops).2) ∧ TreeInv S k m' ∧
        treeAbs m' = (KeySpec.run (treeAbs m) ops).1 := by
    intro ops
    induction ops with
    | nil => intro m hm _; exact ⟨m, rfl, hm, rfl⟩
    | cons o r ih =>
      intro m hm h
      obtain ⟨m1, e1, i1, a1⟩ := treeStep_spec (debug := debug) hm o (fun s v e => h s v (by rw [e]; simp))
      obtain ⟨m2, e2, i2, a2⟩ := ih m1 i1 (fun s v hm => h s v (List.mem_cons_of_mem _ hm))
      refine ⟨m2, ?_, i2, ?_⟩
      · simp only [treeRun, e1, Option.bind_some, e2, Option.map_some, KeySpec.run, a1]
      · rw [a2, a1]; rfl
  obtain ⟨m, e, i, a⟩ := key ops [] ⟨by simp, .nil⟩ ho
  have h0 : treeAbs ([] : List (Str × V)) = fun _ => none := rfl
  rw [h0] at e a
  refine ⟨m, e, i.sorted.imp (fun h => by rw [← C38_cmp]; exact h), ?_⟩
  intro t v
  rw [← a]
  constructor
  · intro hx
    obtain ⟨p, q, rfl⟩ := List.append_of_mem hx
    have hs := i.sorted
    rw [List.pairwise_append] at hs
    rw [treeAbs_append, treeAbs_none (fun x hx => cmp_lt_ne (hs.2.2 x hx (t, v) (by simp))), treeAbs_cons,
      if_pos rfl]
    rfl
  · intro h
    unfold treeAbs at h
    cases hf : m.find? (fun e => decide (e.1 = t)) with
    | none => rw [hf] at h; cases h
    | some x =>
      rw [hf] at h
      have h1 : x.1 = t := by simpa using List.find?_some hf
      have h2 : x.2 = v := by simpa using h
      rw [← h1, ← h2]
      exact List.mem_of_find?_eq_some hf

/-- Concrete histories: texts that differ in case are different keys, also for a hasher that maps
everything to the same number and a table that looks at every entry. -/
example : (hashRun (V := Nat) true .uri (.iriLike .iri) (σ := Unit) ⟨(), fun _ _ => (), fun _ _ => (), fun _ => 7⟩
      (fun _ _ => true) [] [.insert (chars! "a:b") 1, .insert (chars! "A:b") 2, .insert (chars! "a:b") 3,
        .get .str (chars! "a:b"), .remove .slice (chars! "A:b"), .get .owned (chars! "A:b")]).map Prod.snd =
    some [none, none, some 1, some 3, some 2, none] ∧
    treeRun (V := Nat) true .iri (.iriLike .iri) [] [.insert (chars! "b:") 1, .insert (chars! "a:あ") 2,
      .insert (chars! "a:") 4, .get .slice (chars! "b:")] =
    some ([(chars! "a:", 4), (chars! "a:あ", 2), (chars! "b:", 1)], [none, none, none, some 1]) ∧
    try_from_str .uri (.iriLike .iri) (chars! "A:b") = some (.ok (chars! "A:b")) := by decide +kernel

end Verif.Keys
