import Verif.Lemmas.DisplayWriterAll

/-!
# What a normalizing builder finds out about a path that cannot be formatted

`from_path_to_display` stops formatting as soon as it knows the answer.  For a path that starts with a
slash, the first thing written is a slash, whatever happens later.
-/

namespace Verif.Out

open Verif.Tpl (Writer)
open PathToNormalize

/-- Nothing, or a text that starts with a slash. -/
def Lead (t : Str) : Prop := t = [] ∨ ∃ r, t = '/' :: r

/-- `Writes`, and what is written is nothing or starts with a slash. -/
def LeadW (m : ∀ τ : Type, Writer τ → WM τ α) (x : Option (Str × α)) : Prop :=
  ∃ ps : List Str, (∀ s a, x = some (s, a) → ps.flatten = s) ∧ Lead ps.flatten ∧
    ∀ (τ : Type) (w : Writer τ), m τ w = (putAll w ps >>= fun _ => lift (x.map Prod.snd))

theorem Lead.append {a b : Str} (ha : Lead a) (hb : a = [] → Lead b) : Lead (a ++ b) := by
  rcases ha with rfl | ⟨r, rfl⟩
  · exact hb rfl
  · exact .inr ⟨r ++ b, rfl⟩

theorem LeadW.pure (a : α) {z : Option (Str × α)} (h : z = some ([], a)) :
    LeadW (fun _ _ => Pure.pure a) z := by
  subst h
  exact ⟨[], by simp, .inl rfl, fun τ w => rfl⟩

theorem LeadW.panic {z : Option (Str × α)} (h : z = none) : LeadW (fun _ _ => Out.panic) z := by
  subst h
  exact ⟨[], by simp, .inl rfl, fun τ w => rfl⟩

theorem LeadW.bind {m : ∀ τ : Type, Writer τ → WM τ α} {k : α → ∀ τ : Type, Writer τ → WM τ β}
    {x : Option (Str × α)} {y : α → Option (Str × β)} {z : Option (Str × β)}
    (hm : LeadW m x) (hk : ∀ s a, x = some (s, a) → s ≠ [] → Writes (k a) (y a))
    (hk' : ∀ a, x = some ([], a) → LeadW (k a) (y a))
    (e : z = x.bind fun p => (y p.2).map fun q => (p.1 ++ q.1, q.2)) :
    LeadW (fun τ w => m τ w >>= fun a => k a τ w) z := by
  subst e
  obtain ⟨ps, h1, h0, h2⟩ := hm
  cases hx : x with
  | none =>
    refine ⟨ps, by simp, h0, fun τ w => ?_⟩
    show (m τ w >>= fun a => k a τ w) = _
    rw [h2, hx, bind_assoc]
    rfl
  | some p =>
    obtain ⟨s, a⟩ := p
    have hk2 : ∃ qs : List Str, (∀ s b, y a = some (s, b) → qs.flatten = s) ∧ (s = [] → Lead qs.flatten) ∧
        ∀ (τ : Type) (w : Writer τ), k a τ w = (putAll w qs >>= fun _ => Out.lift ((y a).map Prod.snd)) := by
      by_cases hs : s = []
      · subst hs
        obtain ⟨qs, h3, h4, h5⟩ := hk' a hx
        exact ⟨qs, h3, fun _ => h4, h5⟩
      · obtain ⟨qs, h3, h5⟩ := hk s a hx hs
        exact ⟨qs, h3, fun h => absurd h hs, h5⟩
    obtain ⟨qs, h3, h4, h5⟩ := hk2
    refine ⟨ps ++ qs, ?_, ?_, fun τ w => ?_⟩
    · intro s' b h
      simp only [Option.bind_some] at h
      rw [List.flatten_append, h1 s a hx]
      cases hy : y a with
      | none => rw [hy] at h; cases h
      | some q =>
        rw [hy] at h; cases h
        rw [h3 q.1 q.2 hy]
    · rw [List.flatten_append]
      exact h0.append fun h => h4 (by rw [← h1 s a hx, h])
    · show (m τ w >>= fun a => k a τ w) = _
      rw [h2, hx, bind_assoc, putAll_append, bind_assoc]
      simp only [Option.map_some, lift_some, pure_bind, h5, Option.bind_some]
      cases y a <;> rfl

theorem LeadW.lift {x : Option α} {k : α → ∀ τ : Type, Writer τ → WM τ β} {z : Option (Str × β)}
    {y : α → Option (Str × β)} (hk : ∀ a, x = some a → LeadW (k a) (y a)) (e : z = x.bind y) :
    LeadW (fun τ w => Out.lift x >>= fun a => k a τ w) z := by
  subst e
  cases x with
  | none => exact LeadW.panic rfl
  | some a => exact hk a rfl

theorem LeadW.putSlash (r : Str) : LeadW (fun _ w => Out.put w ('/' :: r)) (some ('/' :: r, ())) := by
  refine ⟨['/' :: r], by simp, .inr ⟨r, by simp⟩, fun τ w => ?_⟩
  obtain ⟨ps, _, h2⟩ := Writes.put ('/' :: r)
  show Out.put w ('/' :: r) = (Out.putAll w ['/' :: r] >>= fun _ => Pure.pure ())
  rw [bind_unit]
  show _ = (Out.put w ('/' :: r) >>= fun _ => Pure.pure ())
  rw [bind_unit]

/-! ## The pieces of the path -/

theorem emit_none_slash {S : Spec} {seg : Str} {auth : Bool} {op : NormalizationMode} {s : Str} {o : Option Bool}
    (h : emit_segment S none true seg auth op = some (s, o)) : ∃ r, s = '/' :: r := by
  unfold emit_segment at h
  rw [Option.map_eq_some_iff] at h
  obtain ⟨t, _, h⟩ := h
  simp only [if_true, Prod.mk.injEq] at h
  exact ⟨t, h.1.symm⟩

theorem emitQueue_empty {S : Spec} {auth : Bool} {op : NormalizationMode} (q : List (Option Str)) {o : Option Bool}
    (h : emitQueue S true auth op q none = some ([], o)) : o = none ∧ ∀ x ∈ q, x = none := by
  induction q with
  | nil => cases h; exact ⟨rfl, by simp⟩
  | cons g r ih =>
    cases g with
    | none => exact ⟨(ih h).1, by simpa using (ih h).2⟩
    | some seg =>
      rw [emitQueue] at h
      cases he : emit_segment S none true seg auth op with
      | none => rw [he] at h; cases h
      | some y =>
        obtain ⟨s, o'⟩ := y
        obtain ⟨r', rfl⟩ := emit_none_slash he
        rw [he] at h
        simp only at h
        rw [Option.map_eq_some_iff] at h
        obtain ⟨z, _, h⟩ := h
        simp at h

theorem emitQueue_nones {S : Spec} {first auth : Bool} {op : NormalizationMode} (q : List (Option Str)) (o : Option Bool)
    (h : ∀ x ∈ q, x = none) : emitQueue S first auth op q o = some ([], o) := by
  induction q with
  | nil => rfl
  | cons g r ih =>
    have := h g (by simp)
    subst this
    exact ih fun x hx => h x (by simp [hx])

variable {F : StdPieces} (hF : F.Ok)
include hF

theorem emitSegmentW_lead (dbg : Bool) (S : Spec) (seg : Str) (auth : Bool) (op : NormalizationMode) :
    LeadW (fun _ w => emitSegmentW F dbg S w none true seg auth op) (emit_segment S none true seg auth op) := by
  have tail (o' : Option Bool) : Writes (fun _ w => (do
      writeTextW F dbg S op w seg
      Pure.pure o')) ((writeText S op seg).map fun t => (t, o')) :=
    WritesU.seq (y := some ([], o')) (writeTextW_writes hF dbg S op seg) (Writes.pure _ rfl)
      (by cases writeText S op seg <;> simp)
  unfold emitSegmentW emit_segment
  refine LeadW.bind (y := fun _ => (writeText S op seg).map fun t => (t, some (true && seg.isEmpty)))
    (LeadW.putSlash []) ?_ ?_ ?_
  · intro s a h _
    exact tail _
  · intro a h; cases h
  · cases writeText S op seg <;> simp

theorem emitQueueW_lead (dbg : Bool) (S : Spec) (auth : Bool) (op : NormalizationMode) (q : List (Option Str)) :
    LeadW (fun _ w => emitQueueW F dbg S w true auth op q none) (emitQueue S true auth op q none) := by
  induction q with
  | nil => exact LeadW.pure _ rfl
  | cons g r ih =>
    cases g with
    | none => exact ih
    | some s =>
      refine LeadW.bind (emitSegmentW_lead hF dbg S s auth op)
        (fun _ o _ _ => emitQueueW_writes hF dbg S true auth op r o) ?_ ?_
      · intro a h
        obtain ⟨_, h⟩ := emit_none_slash h
        cases h
      · rw [emitQueue]
        rcases emit_segment S none true s auth op with _ | ⟨t, o'⟩ <;> rfl

omit hF in
theorem emitQueueW_nones (dbg : Bool) (S : Spec) (first auth : Bool) (op : NormalizationMode) (q : List (Option Str))
    (h : ∀ x ∈ q, x = none) (o : Option Bool) (τ : Type) (w : Writer τ) :
    emitQueueW F dbg S w first auth op q o = Pure.pure o := by
  induction q with
  | nil => rfl
  | cons g r ih =>
    have := h g (by simp)
    subst this
    exact ih fun x hx => h x (by simp [hx])

omit hF in
/-- The scan of a path all of whose segments have a leading slash. -/
theorem scan_slash {p : PathToNormalize} (hi : p.Inv) {P : List PSeg} (ht : p.text = pathText P) (hs : AllSlash P) :
    ∃ st N R, scan p (posList P 0) ⟨List.replicate QUEUE_SIZE none, false, 0, 0, true⟩ = some st ∧
      (st.first_has_slash = true ∨ ∀ x ∈ st.queue, x = none) ∧ P = N ++ R ∧
      p.remove_start st.resolved_end ≠ none ∧
      (∀ q, p.remove_start st.resolved_end = some q → q.Inv ∧ q.text = pathText R) ∧
      (st.may = false → (∀ x ∈ st.queue, x = none) → R = []) := by
  have hinit : ScanInv [] ⟨List.replicate QUEUE_SIZE none, false, 0, 0, true⟩ :=
    ⟨rfl, rfl, (by intro g r h; cases h), [], [], rfl, rfl, rfl, by simp, by simp, fun _ => rfl, by simp⟩
  obtain ⟨st, hs1, hs2⟩ := scan_eq hi [] P _ ht hs.ok hinit
  rw [List.nil_append] at hs2
  simp only [pathText_nil, blen] at hs1
  obtain ⟨N, R, hX, hre, hstk, hmay, hN, hend, _⟩ := hs2.split
  obtain ⟨p2, hr2, ht2, hi2⟩ := remove_start_eq hi (a := pathText N) (b := pathText R)
    (by rw [ht, ← pathText_append, ← hX])
  refine ⟨st, N, R, hs1, ?_, hX, by rw [hre, hr2]; simp, ?_, ?_⟩
  · cases hE : stk P with
    | nil =>
      right
      rw [hs2.queue, hE]
      intro x hx
      simpa using hx
    | cons g r =>
      left
      rw [hs2.first g r hE]
      exact (hs g (stk_mem g (by rw [hE]; simp)).1).1
  · intro q hq
    rw [hre, hr2] at hq
    cases hq
    exact ⟨hi2, ht2⟩
  · intro hm hq
    have he : stk P = [] := by
      cases hE : stk P with
      | nil => rfl
      | cons g r =>
        have := hq (some g.2) (by rw [hs2.queue, hE]; simp)
        cases this
    rw [he] at hstk
    have hn : ∀ L : List PSeg, (∀ g ∈ L, isDots g = false) → ∀ T, stk (T ++ L) = stk T ++ L := by
      intro L
      induction L with
      | nil => intro _ T; simp
      | cons g r ih =>
        intro h T
        have hg := h g (by simp)
        rw [show T ++ g :: r = (T ++ [g]) ++ r by simp, ih (fun x hx => h x (by simp [hx])), stk_append, stkStep]
        cases hk : SegmentKind.from_segment g.2 <;> simp [isDots, hk] at hg ⊢
    have := hn R (hmay hm) []
    simp only [List.nil_append] at this
    rw [hstk] at this
    simpa [stk] using this.symm

/-- One round: what is written, and what follows if nothing is written. -/
theorem resolvePrefixesW_lead (dbg : Bool) (S : Spec) (op : NormalizationMode) (auth : Bool)
    {p : PathToNormalize} (hi : p.Inv) {L : List PSeg} (hL : p.text = pathText L) (hs : AllSlash L) :
    LeadW (fun _ w => resolvePrefixesW F dbg S w op auth none true p)
      ((resolve_and_write_path_prefixes S op auth none true p).map flowText) ∧
    ∀ r, (resolve_and_write_path_prefixes S op auth none true p).map flowText = some ([], r) →
      ∃ may' p' R, r = .cont none may' p' ∧ p'.Inv ∧ p'.text = pathText R ∧ AllSlash R ∧
        (may' = false → R = []) := by
  have hok := hs.ok
  have hsplit : L.takeWhile isDots ++ L.dropWhile isDots = L := List.takeWhile_append_dropWhile
  have hskip := skippedLen_eq hi [] L hL hok
  rw [List.nil_append] at hskip
  simp only [pathText_nil, blen] at hskip
  generalize L.takeWhile isDots = D at hsplit hskip
  generalize L.dropWhile isDots = P at hsplit
  obtain ⟨q, hr1, ht1, hi1⟩ := remove_start_eq hi (a := pathText D) (b := pathText P)
    (by rw [hL, ← pathText_append, hsplit])
  have hsP : AllSlash P := fun g hg => hs g (by rw [← hsplit]; simp [hg])
  obtain ⟨st, N, R, hst, hfirst, hX, hrem, hrest, hmay⟩ := scan_slash hi1 ht1 hsP
  have hsR : AllSlash R := fun g hg => hsP g (by rw [hX]; simp [hg])
  unfold resolvePrefixesW resolve_and_write_path_prefixes
  simp only [isEmptyW_eq dbg hi, lift_some, pure_bind]
  by_cases hc : (p.is_empty || !true) = true
  · simp only [hc, if_true]
    exact ⟨LeadW.panic rfl, by intro r h; cases h⟩
  · simp only [hc, Bool.false_eq_true, if_false, segmentsW_eq dbg hi, Option.bind_eq_bind,
      segments_eq hi hL hok, lift_some, pure_bind, Option.bind_some,
      skippedLenW_eq dbg _ _ (posList_heads hi hL hok (allSlash_headOk hs)), hskip, hr1, isEmptyW_eq dbg hi1]
    by_cases he : q.is_empty = true
    · simp only [he, if_true]
      have e : (!auth && (none : Option Bool) == some true) = false := by cases auth <;> rfl
      simp only [e, Bool.false_eq_true, if_false]
      constructor
      · exact LeadW.bind (y := fun _ => some ([], FlowW.brk)) (x := some (['/'], ())) (LeadW.putSlash [])
          (fun _ _ _ _ => Writes.pure _ rfl) (fun _ _ => LeadW.pure _ rfl) (by simp [flowText])
      · intro r h
        simp [flowText] at h
    · simp only [he, Bool.false_eq_true, if_false, segmentsW_eq dbg hi1, segments_eq hi1 ht1 hsP.ok,
        Option.bind_some, hst, lift_some, pure_bind]
      cases hq : q.remove_start st.resolved_end with
      | none => exact absurd hq hrem
      | some r' =>
        obtain ⟨hi2, ht2⟩ := hrest r' hq
        simp only [lift_some, pure_bind, Option.bind_some]
        have hqueue : LeadW (fun _ w => emitQueueW F dbg S w st.first_has_slash auth op st.queue none)
            (emitQueue S st.first_has_slash auth op st.queue none) ∧
            ∀ o, emitQueue S st.first_has_slash auth op st.queue none = some ([], o) →
              o = none ∧ ∀ x ∈ st.queue, x = none := by
          rcases hfirst with hf | hn
          · rw [hf]
            exact ⟨emitQueueW_lead hF dbg S auth op st.queue, fun o h => emitQueue_empty _ h⟩
          · rw [emitQueue_nones _ none hn]
            refine ⟨?_, fun o h => ⟨by cases h; rfl, hn⟩⟩
            simp only [emitQueueW_nones dbg S _ auth op _ hn]
            exact LeadW.pure _ rfl
        constructor
        · refine LeadW.bind (y := fun o => some ([], .cont o st.may r')) hqueue.1
            (fun _ _ _ _ => Writes.pure _ rfl) (fun _ _ => LeadW.pure _ rfl) ?_
          rcases emitQueue S st.first_has_slash auth op st.queue none with _ | x
          · rfl
          · simp [flowText]
        · intro r h
          cases hem : emitQueue S st.first_has_slash auth op st.queue none with
          | none => rw [hem] at h; cases h
          | some x =>
            obtain ⟨t, o⟩ := x
            rw [hem] at h
            simp only [Option.bind_some, Option.map_some, flowText, Option.some.injEq, Prod.mk.injEq] at h
            obtain ⟨rfl, rfl⟩ := h
            obtain ⟨rfl, hn⟩ := hqueue.2 o hem
            exact ⟨st.may, r', R, rfl, hi2, ht2, hsR, fun hm => hmay hm hn⟩

theorem whileLoopW_lead (dbg : Bool) (S : Spec) (op : NormalizationMode) (auth : Bool) (fuel : Nat) (may : Bool)
    {p : PathToNormalize} (hi : p.Inv) {L : List PSeg} (hL : p.text = pathText L) (hs : AllSlash L)
    (hm : may = false → L = []) :
    LeadW (fun _ w => whileLoopW F dbg S w op auth fuel none may p) (whileLoop S op auth fuel none may p) ∧
    ∀ o p', whileLoop S op auth fuel none may p = some ([], some (o, p')) → p'.is_empty = true := by
  induction fuel generalizing may p L with
  | zero => exact ⟨LeadW.panic rfl, by intro o p' h; cases h⟩
  | succ fuel ih =>
    unfold whileLoopW
    rw [whileLoop]
    simp only [isEmptyW_eq dbg hi, lift_some, pure_bind]
    by_cases hc : (!p.is_empty && may) = true
    · simp only [hc, if_true]
      have hm' : may = true := by cases may <;> simp at hc ⊢
      subst hm'
      obtain ⟨h1, h2⟩ := resolvePrefixesW_lead hF dbg S op auth hi hL hs
      constructor
      · refine LeadW.bind (y := fun r => match r with
            | .brk => some ([], none)
            | .cont o may p => whileLoop S op auth fuel o may p) h1 ?_ ?_ ?_
        · intro t r hr _
          cases r with
          | brk => exact Writes.pure _ rfl
          | cont o' may' p' =>
            cases hres : resolve_and_write_path_prefixes S op auth none true p with
            | none => rw [hres] at hr; cases hr
            | some res =>
              rw [hres] at hr
              cases res with
              | brk out => simp [flowText] at hr
              | cont out o2 may2 p2 =>
                simp only [flowText, Option.map_some, Option.some.injEq, Prod.mk.injEq, FlowW.cont.injEq] at hr
                obtain ⟨_, rfl, rfl, rfl⟩ := hr
                obtain ⟨R, h1, h2, h3⟩ := resolve_next hi hL hs.ok hres
                exact whileLoopW_writes hF dbg S op auth fuel _ _ h1 h2 h3.ok (allSlash_headOk h3)
        · intro r hr
          obtain ⟨may', p', R, rfl, hi', ht', hs', hmR⟩ := h2 r hr
          exact (ih may' hi' ht' hs' hmR).1
        · cases hres : resolve_and_write_path_prefixes S op auth none true p with
          | none => rfl
          | some res =>
            cases res with
            | brk out => simp [flowText]
            | cont out o2 may2 p2 => rfl
      · intro o p' h
        cases hres : resolve_and_write_path_prefixes S op auth none true p with
        | none => rw [hres] at h; cases h
        | some res =>
          rw [hres] at h
          cases res with
          | brk out => simp at h
          | cont out o2 may2 p2 =>
            simp only at h
            rw [Option.map_eq_some_iff] at h
            obtain ⟨x, hx, h⟩ := h
            obtain ⟨t, r⟩ := x
            simp only [Prod.mk.injEq, List.append_eq_nil_iff] at h
            obtain ⟨⟨rfl, rfl⟩, rfl⟩ := h
            obtain ⟨may', p3, R, e, hi', ht', hs', hmR⟩ := h2 _ (by rw [hres]; rfl)
            cases e
            exact (ih _ hi' ht' hs' hmR).2 o p' hx
    · simp only [hc, Bool.false_eq_true, if_false]
      refine ⟨LeadW.pure _ rfl, ?_⟩
      intro o p' h
      simp only [Option.some.injEq, Prod.mk.injEq, true_and] at h
      obtain ⟨_, rfl⟩ := h
      cases hp : p.is_empty with
      | true => rfl
      | false =>
        have : may = false := by cases may <;> simp [hp] at hc ⊢
        rw [hm this] at hL
        have he := (inv_empty hi).2 hL
        rw [hp] at he
        cases he

/-- The text of a path that starts with a slash starts with a slash, as far as it is written. -/
theorem fmtWriteNormalizeW_lead (dbg : Bool) (S : Spec) {p : PathToNormalize} (hi : p.Inv) {r : Str}
    (hp : p.text = '/' :: r) :
    LeadW (fun _ w => fmtWriteNormalizeW F dbg S w .default false p)
      ((p.fmt_write_normalize S .default false).map fun s => (s, ())) := by
  unfold fmtWriteNormalizeW fmt_write_normalize
  simp only [isEmptyW_eq dbg hi, lift_some, pure_bind, Option.bind_eq_bind]
  have he : p.is_empty = false := by
    cases h : p.is_empty with
    | false => rfl
    | true => rw [inv_empty hi, hp] at h; cases h
  have hc : (NormalizationMode.default == .preserve && !false && !p.starts_with_slash) = false := by simp
  simp only [he, hc, Bool.false_eq_true, if_false]
  obtain ⟨hok, ht⟩ := pathSegs_spec p.text
  obtain ⟨q, h1, h2, h3⟩ := remove_ignorable_prefix_eq hi ht.symm hok
  have h1' : removeIgnorableW dbg (p.len + 1) p = some q := by
    rw [removeIgnorableW_eq dbg hi]; exact h1
  rw [stripRel_slash hok (by rw [ht, hp])] at h3
  have hs : AllSlash (pathSegs p.text) := by
    cases hL : pathSegs p.text with
    | nil => intro g hg; cases hg
    | cons g L =>
      rw [hL] at hok ht
      rw [hp] at ht
      have hg : g.1 = true := by
        obtain ⟨b, n⟩ := g
        cases b with
        | true => rfl
        | false =>
          exfalso
          have hn : n ≠ [] := hok.2.1 rfl
          cases n with
          | nil => exact hn rfl
          | cons c n =>
            have : c = '/' := by
              have := congrArg (fun l : Str => l.head?) ht
              simpa [pathText, segText] using this
            exact hok.1 (by simp [this])
      intro x hx
      rcases List.mem_cons.1 hx with rfl | hx
      · exact ⟨hg, hok.1⟩
      · exact hok.2.2 x hx
  have hqe : q.is_empty = false := by
    cases h : q.is_empty with
    | false => rfl
    | true => rw [inv_empty h2, h3, ht, hp] at h; cases h
  simp only [h1, h1', lift_some, pure_bind, Option.bind_some, isEmptyW_eq dbg h2, hqe, Bool.false_eq_true, if_false]
  obtain ⟨hw1, hw2⟩ := whileLoopW_lead hF dbg S .default false (q.len + 1) true h2 h3 hs (by intro h; cases h)
  refine LeadW.bind (y := fun r => (match r with
      | none => some []
      | some (o, p) => writeRest S .default false o p).map fun t => (t, ())) hw1 ?_ ?_ ?_
  · intro t r hr _
    cases r with
    | none => exact WritesU.done rfl
    | some x => exact writeRestW_writes hF dbg S .default false x.1 (whileLoop_inv _ h2 h3 hs.ok hr)
  · intro r hr
    cases r with
    | none => exact LeadW.pure _ rfl
    | some x =>
      obtain ⟨o, p'⟩ := x
      have hpe := hw2 o p' hr
      have hi' := whileLoop_inv _ h2 h3 hs.ok hr
      simp only [writeRestW, writeRest, isEmptyW_eq dbg hi', hpe, lift_some, pure_bind, if_true]
      exact LeadW.pure _ rfl
  · cases whileLoop S .default false (q.len + 1) none true q with
    | none => rfl
    | some x =>
      obtain ⟨t, r⟩ := x
      cases r with
      | none => simp
      | some x =>
        obtain ⟨o, p⟩ := x
        simp only [Option.bind_some]
        cases writeRest S .default false o p <;> rfl

end Verif.Out
