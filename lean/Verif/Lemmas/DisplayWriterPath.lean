import Verif.Lemmas.DisplayWriter
import Verif.Lemmas.Rds

/-! # `src/normalize/path.rs` at the level of writer calls -/

namespace Verif.Out

open Verif.Tpl (Writer)
open PathToNormalize

/-! ## The assertions of `PathToNormalize` -/

theorem isEmptyW_eq (dbg : Bool) {p : PathToNormalize} (h : p.Inv) : isEmptyW dbg p = some p.is_empty := by
  unfold isEmptyW is_empty
  cases hb : p.back with
  | none => simp
  | some b =>
    obtain ⟨_, f, hf⟩ := h b hb
    rw [hf]; simp

theorem sliceFrom_suffix {s t : Str} {i : Nat} (h : sliceFrom s i = some t) : ∃ a, s = a ++ t ∧ blen a = i := by
  unfold sliceFrom at h
  cases hs : splitAtB s i with
  | none => rw [hs] at h; cases h
  | some x =>
    rw [hs] at h
    obtain ⟨a, b⟩ := x
    cases h
    exact ⟨a, splitAtB_some.1 hs⟩

theorem findNextSlashW_eq (dbg : Bool) {p : PathToNormalize} (h : p.Inv) (start : Nat) :
    findNextSlashW dbg p start = p.find_next_slash_from start := by
  unfold findNextSlashW find_next_slash_from
  split
  · rename_i hlt
    cases hs : sliceFrom p.front start with
    | none => rfl
    | some s =>
      simp only [Option.bind_some, Option.map_some]
      cases hf : findB s '/' with
      | some pos => rfl
      | none =>
        cases hb : p.back with
        | none => simp
        | some b =>
          exfalso
          obtain ⟨_, f, hfr⟩ := h b hb
          obtain ⟨a, h1, h2⟩ := sliceFrom_suffix hs
          have hne : s ≠ [] := by
            rintro rfl
            rw [h1] at hlt; simp at hlt; omega
          obtain ⟨z, hz⟩ := last_slash (by rw [← h1, hfr]) hne
          rw [hz] at hf
          unfold findB at hf
          rw [Option.map_eq_none_iff, find_split_none] at hf
          exact hf (by simp)
  · rfl

theorem remove_start_inv {p q : PathToNormalize} {n : Nat} (h : p.Inv) (e : p.remove_start n = some q) : q.Inv := by
  unfold remove_start at e
  split at e
  · rename_i hlt
    cases hs : sliceFrom p.front n with
    | none => rw [hs] at e; cases e
    | some s =>
      rw [hs] at e
      cases e
      intro b hb
      obtain ⟨hne, f, hfr⟩ := h b hb
      obtain ⟨a, h1, h2⟩ := sliceFrom_suffix hs
      have hne' : s ≠ [] := by
        rintro rfl
        rw [h1] at hlt; simp at hlt; omega
      exact ⟨hne, last_slash (by rw [← h1, hfr]) hne'⟩
  · cases e
    intro b hb; cases hb

theorem iterNextW_eq (dbg : Bool) {p : PathToNormalize} (h : p.Inv) (c : Nat) :
    iterNextW dbg p c = iterNext p c := by
  unfold iterNextW iterNext
  cases p.byte_at c with
  | none => rfl
  | some b => simp only [findNextSlashW_eq dbg h]; rfl

theorem segmentsW_eq (dbg : Bool) {p : PathToNormalize} (h : p.Inv) : segmentsW dbg p = segments p := by
  unfold segmentsW segments
  generalize p.len + 1 = fuel
  generalize 0 = c
  induction fuel generalizing c with
  | zero => rfl
  | succ fuel ih =>
    unfold iterListW iterList
    rw [iterNextW_eq dbg h]
    rcases iterNext p c with _ | _ | g
    · rfl
    · rfl
    · simp only [ih]

theorem removeIgnorableW_eq (dbg : Bool) {p : PathToNormalize} (h : p.Inv) (fuel : Nat) :
    removeIgnorableW dbg fuel p = remove_ignorable_go fuel p := by
  induction fuel generalizing p with
  | zero => rfl
  | succ fuel ih =>
    unfold removeIgnorableW remove_ignorable_go
    rw [iterNextW_eq dbg h]
    rcases iterNext p 0 with _ | _ | g
    · rfl
    · rfl
    · simp only
      split
      · rfl
      · rcases g.kind p with _ | k
        · rfl
        · cases k
          all_goals simp only
          all_goals
            cases hr : p.remove_start (min (blen p.front) (g.stop + 1)) with
            | none => rfl
            | some q => exact ih (remove_start_inv h hr)

/-- The first segment is not a dot segment without a slash before it. -/
def HeadOk (L : List PSeg) : Prop := ∀ g r, L = g :: r → g.1 = false → isDots g = false

theorem skippedLenW_eq (dbg : Bool) {p : PathToNormalize} (segs : List PathSegment) (acc : Nat)
    (h : ∀ g ∈ segs, g.has_leading_slash = true ∨ g.kind p = some .normal) :
    skippedLenW dbg p segs acc = skippedLen p segs acc := by
  induction segs generalizing acc with
  | nil => rfl
  | cons g r ih =>
    unfold skippedLenW skippedLen
    have hg := h g (by simp)
    have := fun a => ih a (fun x hx => h x (by simp [hx]))
    rcases hk : g.kind p with _ | k
    · rfl
    · cases k with
      | normal => rfl
      | dot =>
        rcases hg with hg | hg
        · simp [hg, this]
        · rw [hk] at hg; cases hg
      | dotDot =>
        rcases hg with hg | hg
        · simp [hg, this]
        · rw [hk] at hg; cases hg

theorem posList_heads {p : PathToNormalize} (hi : p.Inv) {L : List PSeg} (h : p.text = pathText L)
    (hok : OKSegs L) (hh : HeadOk L) :
    ∀ g ∈ posList L 0, g.has_leading_slash = true ∨ g.kind p = some .normal := by
  have all : ∀ (L : List PSeg) (n : Nat), AllSlash L → ∀ g ∈ posList L n, g.has_leading_slash = true := by
    intro L
    induction L with
    | nil => intro n _ g hg; cases hg
    | cons x r ih =>
      intro n ha g hg
      rw [posList, List.mem_cons] at hg
      rcases hg with rfl | hg
      · exact (ha x (by simp)).1
      · exact ih _ (fun y hy => ha y (by simp [hy])) g hg
  cases L with
  | nil => intro g hg; cases hg
  | cons x r =>
    intro g hg
    rw [posList, List.mem_cons] at hg
    rcases hg with rfl | hg
    · by_cases hx : x.1 = true
      · exact .inl hx
      · right
        have := kindOf hi (L1 := []) (g := x) (L2 := r) h hok
        simp only [pathText_nil, blen] at this
        rw [this]
        have := hh x r rfl (by simpa using hx)
        simpa [isDots] using this
    · left
      exact all r _ (by
        have : OKSegs ([x] ++ r) := hok
        exact this.tail_of_append (by simp)) g hg

theorem allSlash_headOk {L : List PSeg} (h : AllSlash L) : HeadOk L := by
  intro g r e hg
  have := (h g (by rw [e]; simp)).1
  rw [hg] at this; cases this

theorem stripRel_headOk {L : List PSeg} (h : OKSegs L) : HeadOk (stripRel L) := by
  revert h
  refine stripRel_ind (P := fun L => OKSegs L → HeadOk (stripRel L)) ?_ ?_ ?_ ?_ ?_ ?_ L
  · intro _; rw [stripRel]; intro g r e; cases e
  · intro n r _; rw [stripRel_true]; intro g r e hg; cases e; cases hg
  · intro n r hd h; rw [stripRel_normal hd]; intro g r e hg; cases e; exact hd
  · intro n hd h; rw [stripRel_end hd]; intro g r e; cases e
  · intro n b r hd h
    rw [stripRel_dots hd, if_pos rfl]
    exact allSlash_headOk fun x hx => h.2.2 x (by simp [hx])
  · intro n b m r hd hm ih h
    rw [stripRel_dots hd, if_neg hm]
    exact ih ⟨(h.2.2 (b, m) (by simp)).2, fun _ => hm, fun x hx => h.2.2 x (by simp [hx])⟩

theorem emitQueue_off (S : Spec) (first auth : Bool) (q : List (Option Str)) (o : Option Bool) :
    ∃ x, emitQueue S first auth .off q o = some x := by
  induction q generalizing o with
  | nil => exact ⟨_, rfl⟩
  | cons g r ih =>
    cases g with
    | none => exact ih o
    | some s =>
      have he : ∃ y, emit_segment S o first s auth .off = some y := ⟨_, rfl⟩
      obtain ⟨⟨t, o'⟩, hy⟩ := he
      obtain ⟨x, hx⟩ := ih o'
      unfold emitQueue
      simp only [hy, hx]
      exact ⟨_, rfl⟩

/-- The path that is left does not depend on what is written. -/
theorem resolve_rest {S : Spec} {op : NormalizationMode} {auth : Bool} {o : Option Bool} {may : Bool}
    {p p' : PathToNormalize} {t : Str} {o' : Option Bool} {may' : Bool}
    (h : resolve_and_write_path_prefixes S op auth o may p = some (.cont t o' may' p')) :
    ∃ t2 o2, resolve_and_write_path_prefixes S .off auth none may p = some (.cont t2 o2 may' p') := by
  unfold resolve_and_write_path_prefixes at h ⊢
  split at h
  · cases h
  · rename_i hc
    simp only [hc]
    simp only [Option.bind_eq_bind] at h ⊢
    cases h1 : segments p with
    | none => rw [h1] at h; cases h
    | some segs =>
      rw [h1] at h
      simp only [Option.bind_some] at h ⊢
      cases h2 : skippedLen p segs 0 with
      | none => rw [h2] at h; cases h
      | some n =>
        rw [h2] at h
        simp only [Option.bind_some] at h ⊢
        cases h3 : p.remove_start n with
        | none => rw [h3] at h; cases h
        | some q =>
          rw [h3] at h
          simp only [Option.bind_some] at h ⊢
          split at h
          · cases h
          · rename_i he
            simp only [he]
            cases h4 : segments q with
            | none => rw [h4] at h; cases h
            | some segs =>
              rw [h4] at h
              simp only [Option.bind_some] at h ⊢
              cases h5 : scan q segs ⟨List.replicate QUEUE_SIZE none, false, 0, 0, may⟩ with
              | none => rw [h5] at h; cases h
              | some st =>
                rw [h5] at h
                simp only [Option.bind_some] at h ⊢
                cases h6 : emitQueue S st.first_has_slash auth op st.queue o with
                | none => rw [h6] at h; cases h
                | some x =>
                  rw [h6] at h
                  obtain ⟨y, hy⟩ := emitQueue_off S st.first_has_slash auth st.queue none
                  rw [hy]
                  simp only [Option.bind_some] at h ⊢
                  cases h7 : q.remove_start st.resolved_end with
                  | none => rw [h7] at h; cases h
                  | some r =>
                    rw [h7] at h
                    simp only [Option.bind_some, Option.some.injEq, Resolved.cont.injEq] at h ⊢
                    exact ⟨y.1, y.2, by simp [h.2.2.1, h.2.2.2]⟩

theorem resolve_next {S : Spec} {op : NormalizationMode} {auth : Bool} {o : Option Bool}
    {p p' : PathToNormalize} {t : Str} {o' : Option Bool} {may' : Bool} (hi : p.Inv) {L : List PSeg}
    (hL : p.text = pathText L) (hok : OKSegs L)
    (h : resolve_and_write_path_prefixes S op auth o true p = some (.cont t o' may' p')) :
    ∃ R, p'.Inv ∧ p'.text = pathText R ∧ AllSlash R := by
  have hne : L ≠ [] := by
    rintro rfl
    have he : p.is_empty = true := by rw [inv_empty hi, hL]; rfl
    unfold resolve_and_write_path_prefixes at h
    simp [he] at h
  obtain ⟨t2, o2, h2⟩ := resolve_rest h
  rcases resolve_step (S := S) (op := .off) (auth := auth) (E := []) hi hL hok hne
    (fun g _ => fun hc => by cases hc) (.inl rfl) with ⟨t, h1, _⟩ | ⟨t, Q, R, may', p', h1, _, _, ⟨N, hN, hNR, _⟩, h4, h5, _⟩
  · rw [show onlySlash auth [] = none from rfl, h2] at h1
    cases h1
  · rw [show onlySlash auth [] = none from rfl, h2] at h1
    cases h1
    exact ⟨R, h4, h5, by rw [hNR] at hok; exact hok.tail_of_append hN⟩

theorem whileLoop_inv {S : Spec} {op : NormalizationMode} {auth : Bool} (fuel : Nat) {o : Option Bool}
    {may : Bool} {p p' : PathToNormalize} {t : Str} {o' : Option Bool} (hi : p.Inv) {L : List PSeg}
    (hL : p.text = pathText L) (hok : OKSegs L)
    (h : whileLoop S op auth fuel o may p = some (t, some (o', p'))) : p'.Inv := by
  induction fuel generalizing o may p t L with
  | zero => cases h
  | succ fuel ih =>
    rw [whileLoop] at h
    split at h
    · rename_i hc
      have hm : may = true := by cases may <;> simp at hc ⊢
      subst hm
      cases hres : resolve_and_write_path_prefixes S op auth o true p with
      | none => rw [hres] at h; cases h
      | some res =>
        rw [hres] at h
        cases res with
        | brk out => simp at h
        | cont out o2 may2 p2 =>
          dsimp only at h
          obtain ⟨R, h1, h2, h3⟩ := resolve_next hi hL hok hres
          cases hw : whileLoop S op auth fuel o2 may2 p2 with
          | none => rw [hw] at h; cases h
          | some x =>
            rw [hw] at h
            obtain ⟨t', r⟩ := x
            simp only [Option.map_some, Option.some.injEq, Prod.mk.injEq] at h
            obtain ⟨_, rfl⟩ := h
            exact ih h1 h2 h3.ok hw
    · cases h; exact hi

/-! ## What is written -/

theorem WritesU.cast {m : ∀ τ : Type, Writer τ → WM τ Unit} {x y : Option Str} (h : WritesU m x) (e : y = x) :
    WritesU m y := e ▸ h

variable {F : StdPieces} (hF : F.Ok)
include hF

theorem writeTextW_writes (dbg : Bool) (S : Spec) (op : NormalizationMode) (s : Str) :
    WritesU (fun _ w => writeTextW F dbg S op w s) (writeText S op s) := by
  unfold writeTextW writeText
  exact WritesU.ite (fun _ => pctCaseW_writes hF dbg S s) (fun _ => Writes.put s) rfl

theorem emitSegmentW_writes (dbg : Bool) (S : Spec) (o : Option Bool) (first : Bool) (seg : Str) (auth : Bool)
    (op : NormalizationMode) :
    Writes (fun _ w => emitSegmentW F dbg S w o first seg auth op) (emit_segment S o first seg auth op) := by
  have tail (o' : Option Bool) : Writes (fun _ w => (do
      writeTextW F dbg S op w seg
      Pure.pure o')) ((writeText S op seg).map fun t => (t, o')) :=
    WritesU.seq (y := some ([], o')) (writeTextW_writes hF dbg S op seg) (Writes.pure _ rfl)
      (by cases writeText S op seg <;> simp)
  unfold emitSegmentW emit_segment
  cases o with
  | none =>
    cases first with
    | true =>
      exact WritesU.seq (Writes.put _) (tail _) (by cases writeText S op seg <;> simp)
    | false => 
      simpa using tail _
  | some only =>
    by_cases hc : (only && !auth) = true
    · simp only [hc, if_true]
      exact WritesU.seq (Writes.put _) (WritesU.seq (Writes.put _) (tail _) rfl)
        (by cases writeText S op seg <;> simp)
    · simp only [hc]
      exact WritesU.seq (Writes.put _) (tail _) (by cases writeText S op seg <;> simp)

theorem emitQueueW_writes (dbg : Bool) (S : Spec) (first auth : Bool) (op : NormalizationMode)
    (q : List (Option Str)) (o : Option Bool) :
    Writes (fun _ w => emitQueueW F dbg S w first auth op q o) (emitQueue S first auth op q o) := by
  induction q generalizing o with
  | nil => exact Writes.pure _ rfl
  | cons g r ih =>
    cases g with
    | none => exact ih o
    | some s =>
      refine Writes.bind (emitSegmentW_writes hF dbg S o first s auth op) (fun _ o _ => ih o) ?_
      rw [emitQueue]
      rcases emit_segment S o first s auth op with _ | ⟨t, o'⟩ <;> rfl

/-- The text and the value of a result. -/
def flowText : Resolved → Str × FlowW
  | .brk out => (out, .brk)
  | .cont out o may p => (out, .cont o may p)

theorem resolvePrefixesW_writes (dbg : Bool) (S : Spec) (op : NormalizationMode) (auth : Bool)
    (o : Option Bool) (may : Bool) {p : PathToNormalize} (hi : p.Inv) {L : List PSeg}
    (hL : p.text = pathText L) (hok : OKSegs L) (hh : HeadOk L) :
    Writes (fun _ w => resolvePrefixesW F dbg S w op auth o may p)
      ((resolve_and_write_path_prefixes S op auth o may p).map flowText) := by
  unfold resolvePrefixesW resolve_and_write_path_prefixes
  simp only [isEmptyW_eq dbg hi, lift_some, pure_bind]
  by_cases hc : (p.is_empty || !may) = true
  · simp only [hc, if_true]
    exact Writes.panic rfl
  · simp only [hc, Bool.false_eq_true, if_false, segmentsW_eq dbg hi, Option.bind_eq_bind,
      segments_eq hi hL hok, lift_some, pure_bind,
      Option.bind_some, skippedLenW_eq dbg _ _ (posList_heads hi hL hok hh)]
    refine Writes.lift ?_ Option.map_bind
    intro n _
    refine Writes.lift ?_ Option.map_bind
    intro q hq
    have hi' := remove_start_inv hi hq
    simp only [isEmptyW_eq dbg hi', lift_some, pure_bind, Function.comp_apply]
    by_cases he : q.is_empty = true
    · simp only [he, if_true]
      by_cases ha : (!auth && o == some true) = true
      · simp only [ha, if_true]
        exact WritesU.seq (y := some ([], .brk)) (Writes.put _) (Writes.pure _ rfl) (by simp [flowText])
      · simp only [ha, Bool.false_eq_true, if_false]
        exact WritesU.seq (y := some ([], .brk)) (Writes.put _) (Writes.pure _ rfl) (by simp [flowText])
    · simp only [he, Bool.false_eq_true, if_false, segmentsW_eq dbg hi']
      refine Writes.lift ?_ Option.map_bind
      intro segs _
      refine Writes.lift ?_ Option.map_bind
      intro st _
      refine Writes.bind (y := fun o => (q.remove_start st.resolved_end).bind fun p =>
          some ([], .cont o st.may p))
        (emitQueueW_writes hF dbg S st.first_has_slash auth op st.queue o) ?_ ?_
      · intro t o' _
        exact Writes.lift (fun p _ => Writes.pure _ rfl) rfl
      · simp only [Function.comp_apply]
        rcases emitQueue S st.first_has_slash auth op st.queue o with _ | x
        · rfl
        · simp only [Option.bind_some]
          cases q.remove_start st.resolved_end with
          | none => rfl
          | some r => simp [flowText]

theorem whileLoopW_writes (dbg : Bool) (S : Spec) (op : NormalizationMode) (auth : Bool) (fuel : Nat)
    (o : Option Bool) (may : Bool) {p : PathToNormalize} (hi : p.Inv) {L : List PSeg}
    (hL : p.text = pathText L) (hok : OKSegs L) (hh : HeadOk L) :
    Writes (fun _ w => whileLoopW F dbg S w op auth fuel o may p) (whileLoop S op auth fuel o may p) := by
  induction fuel generalizing o may p L with
  | zero => exact Writes.panic rfl
  | succ fuel ih =>
    unfold whileLoopW
    rw [whileLoop]
    simp only [isEmptyW_eq dbg hi, lift_some, pure_bind]
    by_cases hc : (!p.is_empty && may) = true
    · simp only [hc, if_true]
      have hm : may = true := by cases may <;> simp at hc ⊢
      subst hm
      refine Writes.bind (y := fun r => match r with
          | .brk => some ([], none)
          | .cont o may p => whileLoop S op auth fuel o may p)
        (resolvePrefixesW_writes hF dbg S op auth o true hi hL hok hh) ?_ ?_
      · intro t r hr
        cases r with
        | brk => exact Writes.pure _ rfl
        | cont o' may' p' =>
          cases hres : resolve_and_write_path_prefixes S op auth o true p with
          | none => rw [hres] at hr; cases hr
          | some res =>
            rw [hres] at hr
            cases res with
            | brk out => simp [flowText] at hr
            | cont out o2 may2 p2 =>
              simp only [flowText, Option.map_some, Option.some.injEq, Prod.mk.injEq, FlowW.cont.injEq] at hr
              obtain ⟨_, rfl, rfl, rfl⟩ := hr
              obtain ⟨R, h1, h2, h3⟩ := resolve_next hi hL hok hres
              exact ih _ _ h1 h2 h3.ok (allSlash_headOk h3)
      · cases hres : resolve_and_write_path_prefixes S op auth o true p with
        | none => rfl
        | some res =>
          cases res with
          | brk out => simp [flowText]
          | cont out o2 may2 p2 => rfl
    · simp only [hc, Bool.false_eq_true, if_false]
      exact Writes.pure _ rfl

/-- The text of the two buffers. -/
def bufText (S : Spec) (op : NormalizationMode) (p : PathToNormalize) : Option Str :=
  (writeText S op p.front).bind fun f =>
    (match p.back with | none => some [] | some b => writeText S op b).map fun b => f ++ b

theorem writeBuffersW_writes (dbg : Bool) (S : Spec) (op : NormalizationMode) (p : PathToNormalize) :
    WritesU (fun _ w => writeBuffersW F dbg S op w p) (bufText S op p) := by
  unfold writeBuffersW
  refine WritesU.then (writeTextW_writes hF dbg S op p.front)
    (y := match p.back with | none => some [] | some b => writeText S op b) ?_ rfl
  cases p.back with
  | none => exact WritesU.done rfl
  | some b => exact writeTextW_writes hF dbg S op b

theorem fixedPrefix (dbg : Bool) (S : Spec) (op : NormalizationMode) (pre : Str) (n : Nat) (p : PathToNormalize) :
    WritesU (fun _ w => (do
      put w pre
      let p ← Out.lift (p.remove_start n)
      writeBuffersW F dbg S op w p)) ((p.remove_start n).bind fun q => (bufText S op q).map fun t => pre ++ t) := by
  refine WritesU.then (y := (p.remove_start n).bind fun q => bufText S op q) (Writes.put pre)
    (WritesU.lift (fun q _ => writeBuffersW_writes hF dbg S op q) rfl) ?_
  cases p.remove_start n <;> rfl

theorem writeRestW_writes (dbg : Bool) (S : Spec) (op : NormalizationMode) (auth : Bool)
    (o : Option Bool) {p : PathToNormalize} (hi : p.Inv) :
    WritesU (fun _ w => writeRestW F dbg S w op auth o p) (writeRest S op auth o p) := by
  have hb := writeBuffersW_writes hF dbg S op p
  have e0 : ∀ pre (q : PathToNormalize), (bufText S op q).map (fun t => pre ++ t) =
      (writeText S op q.front).bind fun f =>
        match q.back with
        | none => some (pre ++ (f ++ []))
        | some b => (writeText S op b).bind fun b => some (pre ++ (f ++ b)) := by
    intro pre q
    unfold bufText
    cases writeText S op q.front with
    | none => rfl
    | some f =>
      simp only [Option.bind_some]
      cases q.back with
      | none => rfl
      | some b => dsimp only; cases writeText S op b <;> rfl
  have e1 : bufText S op p = (bufText S op p).map (fun t => [] ++ t) := by cases bufText S op p <;> rfl
  unfold writeRestW writeRest
  simp only [isEmptyW_eq dbg hi, lift_some, pure_bind, Option.bind_eq_bind]
  by_cases he : p.is_empty = true
  · simp only [he, if_true]
    exact WritesU.done rfl
  · simp only [he, Bool.false_eq_true, if_false]
    cases auth with
    | true =>
      simp only [if_true, Bool.not_true, Bool.false_eq_true, if_false, Option.bind_some]
      rw [e1, e0] at hb
      exact hb
    | false =>
      simp only [if_true, Bool.not_false, Bool.false_eq_true, if_false]
      have hb' := hb
      rw [e1, e0] at hb'
      have hp (pre : Str) (n : Nat) := fixedPrefix hF dbg S op pre n p
      simp only [e0] at hp
      cases o with
      | none =>
        refine WritesU.ite (fun _ => ?_) (fun _ => hb') rfl
        exact WritesU.cast (hp ['/', '.', '/', '/'] 2) (by cases p.remove_start 2 <;> rfl)
      | some b =>
        cases b with
        | false => exact hb'
        | true =>
          refine WritesU.ite (fun _ => ?_) (fun _ => hb') rfl
          exact WritesU.cast (hp ['.', '/', '/'] 1) (by cases p.remove_start 1 <;> rfl)

theorem fmtWriteNormalizeW_writes (dbg : Bool) (S : Spec) (op : NormalizationMode) (auth : Bool)
    {p : PathToNormalize} (hi : p.Inv) :
    WritesU (fun _ w => fmtWriteNormalizeW F dbg S w op auth p) (p.fmt_write_normalize S op auth) := by
  unfold fmtWriteNormalizeW fmt_write_normalize
  simp only [isEmptyW_eq dbg hi, lift_some, pure_bind, Option.bind_eq_bind]
  by_cases he : p.is_empty = true
  · simp only [he, if_true]
    exact WritesU.done rfl
  · simp only [he, Bool.false_eq_true, if_false]
    by_cases hc : (op == .preserve && !auth && !p.starts_with_slash) = true
    · simp only [hc, if_true]
      have hop : op = .preserve := by
        simp only [Bool.and_eq_true, beq_iff_eq] at hc; exact hc.1.1
      subst hop
      refine WritesU.assert rfl ?_
      refine WritesU.then (pctCaseW_writes hF dbg S p.front)
        (y := match p.back with | none => some [] | some b => pct_case_normalized S b) ?_ ?_
      · cases p.back with
        | none => exact WritesU.done rfl
        | some b => exact pctCaseW_writes hF dbg S b
      · cases pct_case_normalized S p.front with
        | none => rfl
        | some f =>
          simp only [Option.bind_some]
          cases p.back with
          | none => rfl
          | some b => dsimp only; cases pct_case_normalized S b <;> rfl
    · simp only [hc, Bool.false_eq_true, if_false]
      obtain ⟨hok, ht⟩ := pathSegs_spec p.text
      obtain ⟨q, h1, h2, h3⟩ := remove_ignorable_prefix_eq hi ht.symm hok
      have h1' : removeIgnorableW dbg (p.len + 1) p = some q := by
        rw [removeIgnorableW_eq dbg hi]; exact h1
      have hokS := stripRel_ok hok
      have hhS := stripRel_headOk hok
      simp only [h1, h1', lift_some, pure_bind, Option.bind_some, isEmptyW_eq dbg h2]
      by_cases he' : q.is_empty = true
      · simp only [he', if_true]
        cases auth with
        | true => exact Writes.put _
        | false => exact WritesU.done rfl
      · simp only [he', Bool.false_eq_true, if_false]
        refine Writes.bind (y := fun r => (match r with
            | none => some []
            | some (o, p) => writeRest S op auth o p).map fun t => (t, ()))
          (whileLoopW_writes hF dbg S op auth (q.len + 1) none true h2 h3 hokS hhS) ?_ ?_
        · intro t r hr
          cases r with
          | none => exact WritesU.done rfl
          | some x => exact writeRestW_writes hF dbg S op auth x.1 (whileLoop_inv _ h2 h3 hokS hr)
        · cases whileLoop S op auth (q.len + 1) none true q with
          | none => rfl
          | some x =>
            obtain ⟨t, r⟩ := x
            cases r with
            | none => simp
            | some x =>
              obtain ⟨o, p⟩ := x
              simp only [Option.bind_some]
              cases writeRest S op auth o p <;> rfl

end Verif.Out
