import Verif.Model.NormalizeWork
import Verif.Props.PctWork
import Verif.Props.PathWork
import Verif.Spec.Lit

/-!
# C91: normalizing and resolving never look at more than (bytes × slashes) bytes
-/

namespace Verif

open Rfc

namespace Work

open PathToNormalize

/-! ### The counter changes nothing -/

@[simp] theorem find_next_slash_from_fst (p : PathToNormalize) (n : Nat) :
    (find_next_slash_from p n).1 = p.find_next_slash_from n := by
  unfold find_next_slash_from PathToNormalize.find_next_slash_from findB
  by_cases h : n < blen p.front
  · rw [if_pos h, if_pos h]
    rcases sliceFrom p.front n with _ | s
    · rfl
    · simp [Option.map_map, Function.comp_def]
  · rw [if_neg h, if_neg h]
    rcases p.back with _ | b
    · rfl
    · simp only
      rcases sliceFrom b (n - blen p.front) with _ | s
      · rfl
      · simp [Option.map_map, Function.comp_def]

@[simp] theorem iterNext_fst (p : PathToNormalize) (c : Nat) : (iterNext p c).1 = Verif.iterNext p c := by
  unfold iterNext Verif.iterNext
  rw [bind_fst]
  rcases p.byte_at c with _ | b
  · rfl
  · simp only [bind_fst, find_next_slash_from_fst, ret_fst]
    congr 1
    funext o
    rcases o <;> rfl

@[simp] theorem iterList_fst (p : PathToNormalize) : ∀ (f c : Nat), (iterList p f c).1 = Verif.iterList p f c
  | 0, _ => rfl
  | f + 1, c => by
    unfold iterList Verif.iterList
    rw [bind_fst, iterNext_fst]
    rcases Verif.iterNext p c with _ | _ | g
    · rfl
    · rfl
    · simp only [bind_fst, iterList_fst p f g.stop]; rfl

@[simp] theorem segments_fst (p : PathToNormalize) : (segments p).1 = Verif.segments p := iterList_fst p _ _

@[simp] theorem kind_fst (g : PathSegment) (p : PathToNormalize) : (kind g p).1 = g.kind p := rfl

@[simp] theorem remove_ignorable_go_fst : ∀ (f : Nat) (p : PathToNormalize),
    (remove_ignorable_go f p).1 = PathToNormalize.remove_ignorable_go f p
  | 0, _ => rfl
  | f + 1, p => by
    unfold remove_ignorable_go PathToNormalize.remove_ignorable_go
    rw [bind_fst, iterNext_fst]
    rcases Verif.iterNext p 0 with _ | _ | g
    · rfl
    · rfl
    · simp only
      by_cases h : g.has_leading_slash = true
      · rw [if_pos h, if_pos h]; rfl
      · rw [if_neg h, if_neg h, bind_fst, kind_fst]
        rcases g.kind p with _ | _ | _ | _
        · rfl
        · simp only
          rcases p.remove_start (min (blen p.front) (g.stop + 1)) with _ | q
          · rfl
          · exact remove_ignorable_go_fst f q
        · simp only
          rcases p.remove_start (min (blen p.front) (g.stop + 1)) with _ | q
          · rfl
          · exact remove_ignorable_go_fst f q
        · rfl

@[simp] theorem writeText_fst (S : Spec) (op : NormalizationMode) (s : Str) :
    (writeText S op s).1 = PathToNormalize.writeText S op s := by
  unfold writeText PathToNormalize.writeText
  by_cases h : op.case_pct = true
  · rw [if_pos h, if_pos h]; exact pct_case_go_fst S _ _
  · rw [if_neg h, if_neg h]; rfl

@[simp] theorem skippedLen_fst (p : PathToNormalize) : ∀ (L : List PathSegment) (acc : Nat),
    (skippedLen p L acc).1 = PathToNormalize.skippedLen p L acc
  | [], _ => rfl
  | g :: r, acc => by
    unfold skippedLen PathToNormalize.skippedLen
    rw [bind_fst, kind_fst]
    rcases g.kind p with _ | _ | _ | _
    · rfl
    · exact skippedLen_fst p r _
    · exact skippedLen_fst p r _
    · rfl

@[simp] theorem scan_fst (p : PathToNormalize) : ∀ (L : List PathSegment) (st : QState),
    (scan p L st).1 = PathToNormalize.scan p L st
  | [], _ => rfl
  | g :: r, st => by
    unfold scan PathToNormalize.scan
    rw [bind_fst, kind_fst]
    rcases g.kind p with _ | _ | _ | _
    · rfl
    · exact scan_fst p r _
    · exact scan_fst p r _
    · simp only
      by_cases h : st.level < st.queue.length
      · rw [if_pos h, if_pos h]
        rcases g.segment p with _ | n
        · rfl
        · exact scan_fst p r _
      · rw [if_neg h, if_neg h]; exact scan_fst p r _

@[simp] theorem emitQueue_fst (S : Spec) (fs auth : Bool) (op : NormalizationMode) :
    ∀ (L : List (Option Str)) (o : Option Bool),
    (emitQueue S fs auth op L o).1 = PathToNormalize.emitQueue S fs auth op L o
  | [], _ => rfl
  | none :: r, o => by
    unfold emitQueue PathToNormalize.emitQueue
    exact emitQueue_fst S fs auth op r o
  | some s :: r, o => by
    unfold emitQueue PathToNormalize.emitQueue emit_segment
    rw [bind_fst]
    rcases PathToNormalize.emit_segment S o fs s auth op with _ | ⟨t, o'⟩
    · rfl
    · simp only [bind_fst, emitQueue_fst S fs auth op r o']; rfl

@[simp] theorem resolve_prefixes_fst (S : Spec) (op : NormalizationMode) (auth : Bool) (o : Option Bool) (may : Bool)
    (p : PathToNormalize) : (resolve_and_write_path_prefixes S op auth o may p).1 =
      PathToNormalize.resolve_and_write_path_prefixes S op auth o may p := by
  unfold resolve_and_write_path_prefixes PathToNormalize.resolve_and_write_path_prefixes
  by_cases h : (p.is_empty || !may) = true
  · rw [if_pos h, if_pos h]; rfl
  · rw [if_neg h, if_neg h, bind_fst, segments_fst]
    simp only [Option.bind_eq_bind]
    rcases Verif.segments p with _ | L
    · rfl
    · simp only [bind_fst, skippedLen_fst, Option.bind_some]
      rcases PathToNormalize.skippedLen p L 0 with _ | n
      · rfl
      · simp only [Option.bind_some]
        rcases p.remove_start n with _ | q
        · rfl
        · simp only [Option.bind_some]
          by_cases h2 : q.is_empty = true
          · rw [if_pos h2, if_pos h2]; rfl
          · rw [if_neg h2, if_neg h2, bind_fst, segments_fst]
            rcases Verif.segments q with _ | M
            · rfl
            · simp only [bind_fst, scan_fst, Option.bind_some]
              rcases PathToNormalize.scan q M ⟨List.replicate QUEUE_SIZE none, false, 0, 0, may⟩ with _ | st
              · rfl
              · simp only [bind_fst, emitQueue_fst, Option.bind_some]
                rcases PathToNormalize.emitQueue S st.first_has_slash auth op st.queue o with _ | ⟨t, o'⟩
                · rfl
                · simp only [Option.bind_some]
                  rcases q.remove_start st.resolved_end <;> rfl

@[simp] theorem whileLoop_fst (S : Spec) (op : NormalizationMode) (auth : Bool) :
    ∀ (f : Nat) (o : Option Bool) (may : Bool) (p : PathToNormalize),
    (whileLoop S op auth f o may p).1 = PathToNormalize.whileLoop S op auth f o may p
  | 0, _, _, _ => rfl
  | f + 1, o, may, p => by
    unfold whileLoop PathToNormalize.whileLoop
    by_cases h : (!p.is_empty && may) = true
    · rw [if_pos h, if_pos h, bind_fst, resolve_prefixes_fst]
      rcases PathToNormalize.resolve_and_write_path_prefixes S op auth o may p with _ | t | ⟨t, o', m', q⟩
      · rfl
      · rfl
      · simp only [bind_fst, whileLoop_fst S op auth f o' m' q]; rfl
    · rw [if_neg h, if_neg h]; rfl

@[simp] theorem fmt_write_normalize_fst (S : Spec) (op : NormalizationMode) (auth : Bool) (p : PathToNormalize) :
    (fmt_write_normalize S op auth p).1 = p.fmt_write_normalize S op auth := by
  unfold fmt_write_normalize PathToNormalize.fmt_write_normalize
  by_cases h : p.is_empty = true
  · rw [if_pos h, if_pos h]; rfl
  · rw [if_neg h, if_neg h]
    simp only [Option.bind_eq_bind]
    by_cases h2 : (op == .preserve && !auth && !p.starts_with_slash) = true
    · rw [if_pos h2, if_pos h2, bind_fst]
      rw [show (pct_case_normalized S p.front).1 = Verif.pct_case_normalized S p.front from pct_case_go_fst S _ _]
      rcases Verif.pct_case_normalized S p.front with _ | f
      · rfl
      · simp only [Option.bind_some]
        rcases p.back with _ | b
        · rfl
        · simp only [bind_fst]
          rw [show (pct_case_normalized S b).1 = Verif.pct_case_normalized S b from pct_case_go_fst S _ _]
          rcases Verif.pct_case_normalized S b <;> rfl
    · rw [if_neg h2, if_neg h2, bind_fst, remove_ignorable_go_fst]
      unfold remove_ignorable_prefix
      rcases PathToNormalize.remove_ignorable_go (p.len + 1) p with _ | q
      · rfl
      · simp only [Option.bind_some]
        by_cases h3 : q.is_empty = true
        · rw [if_pos h3, if_pos h3]; rfl
        · rw [if_neg h3, if_neg h3, bind_fst, whileLoop_fst]
          rcases PathToNormalize.whileLoop S op auth (q.len + 1) none true q with _ | ⟨t, _ | ⟨o, w⟩⟩ <;> rfl

theorem normalize_host_port_fst (S : Spec) (s : Str) :
    (normalize_host_port S s).1 = Verif.normalize_host_port S s := by
  unfold normalize_host_port Verif.normalize_host_port
  rw [bind_fst, bind_fst]
  rw [show (is_ascii_only_host (stripColon s)).1 = Verif.is_ascii_only_host (stripColon s) from
    is_ascii_only_host_go_fst _ _]
  simp only
  rcases Verif.is_ascii_only_host (stripColon s) with _ | _ | _
  · rfl
  · exact pct_case_go_fst S _ _
  · exact ascii_host_go_fst _ _

theorem normalize_authority_fst (S : Spec) (s : Str) :
    (normalize_authority S s).1 = Verif.normalize_authority S s := by
  unfold normalize_authority Verif.normalize_authority
  rw [bind_fst, rfind_split_hole_fst]
  rcases Verif.rfind_split_hole s '@' with _ | ⟨u, h⟩
  · exact normalize_host_port_fst S s
  · simp only [bind_fst, Option.bind_eq_bind]
    rw [show (pct_case_normalized S u).1 = Verif.pct_case_normalized S u from pct_case_go_fst S _ _]
    rcases Verif.pct_case_normalized S u with _ | u'
    · rfl
    · simp only [bind_fst, Option.bind_some, normalize_host_port_fst S h]
      rcases Verif.normalize_host_port S h <;> rfl

theorem writeOpt_fst (pre : Str) (f : Str → T (Option Str)) (g : Str → Option Str) (h : ∀ x, (f x).1 = g x)
    (o : Option Str) : (writeOpt pre f o).1 = Verif.writeOpt pre g o := by
  unfold writeOpt Verif.writeOpt
  rcases o with _ | x
  · rfl
  · simp only [bind_fst, h]; rfl

theorem displayPath_fst (S : Spec) (i : NormalizationInput) : (displayPath S i).1 =
    match i.path with
    | .done s =>
      if i.op.case_pct then (PathToNormalize.from_single_path s).fmt_write_normalize S i.op i.authority.isSome
      else some s
    | .needsProcessing p => p.fmt_write_normalize S i.op i.authority.isSome := by
  unfold displayPath
  rcases i.path with s | p
  · simp only
    by_cases h : i.op.case_pct = true
    · rw [if_pos h, if_pos h, fmt_write_normalize_fst]
    · rw [if_neg h, if_neg h]; rfl
  · exact fmt_write_normalize_fst S _ _ p

theorem display_fst (S : Spec) (i : NormalizationInput) : (display S i).1 = i.display S := by
  unfold display NormalizationInput.display
  simp only [bind_fst, Option.bind_eq_bind]
  rw [writeOpt_fst _ _ (fun a => if i.op.case_pct = true then Verif.normalize_authority S a else some a) (by
    intro x
    by_cases h : i.op.case_pct = true
    · rw [if_pos h, if_pos h, normalize_authority_fst]
    · rw [if_neg h, if_neg h]; rfl)]
  have hs : (if i.op.case_pct = true then normalize_scheme i.scheme else ret i.scheme).1 =
      if i.op.case_pct = true then Verif.normalize_scheme i.scheme else i.scheme := by
    by_cases h : i.op.case_pct = true
    · rw [if_pos h, if_pos h]; rfl
    · rw [if_neg h, if_neg h]; rfl
  have hq : ∀ x, (if i.op.case_pct = true then pct_case_normalized S x else ret (some x)).1 =
      if i.op.case_pct = true then Verif.pct_case_normalized S x else some x := by
    intro x
    by_cases h : i.op.case_pct = true
    · rw [if_pos h, if_pos h]; exact pct_case_go_fst S _ _
    · rw [if_neg h, if_neg h]; rfl
  rw [hs]
  rcases Verif.writeOpt ['/', '/'] (fun a => if i.op.case_pct = true then Verif.normalize_authority S a else some a)
    i.authority with _ | a
  · rfl
  · simp only [bind_fst, Option.bind_some]
    have tail : ∀ (x : Option Str), (match x with
        | none => ret none
        | some path =>
          bind (writeOpt ['?'] (fun q => if i.op.case_pct = true then pct_case_normalized S q else ret (some q))
            i.query) fun
          | none => ret none
          | some query =>
            bind (writeOpt ['#'] (fun f => if i.op.case_pct = true then pct_case_normalized S f else ret (some f))
              i.fragment) fun
            | none => ret none
            | some fragment => ret (some ((if i.op.case_pct = true then Verif.normalize_scheme i.scheme
                else i.scheme) ++ (':' :: (a ++ (path ++ (query ++ fragment)))))) : T (Option Str)).1 =
        x.bind fun path =>
          (Verif.writeOpt ['?'] (fun q => if i.op.case_pct = true then Verif.normalize_query S q else some q)
            i.query).bind fun query =>
            (Verif.writeOpt ['#'] (fun f => if i.op.case_pct = true then Verif.normalize_fragment S f else some f)
              i.fragment).bind fun fragment =>
              some ((if i.op.case_pct = true then Verif.normalize_scheme i.scheme
                else i.scheme) ++ (':' :: (a ++ (path ++ (query ++ fragment))))) := by
      intro x
      rcases x with _ | p
      · rfl
      · simp only [bind_fst, Option.bind_some]
        rw [writeOpt_fst _ _ _ hq]
        unfold normalize_query normalize_fragment
        rcases Verif.writeOpt ['?'] _ i.query with _ | q
        · rfl
        · simp only [bind_fst, Option.bind_some]
          rw [writeOpt_fst _ _ _ hq]
          rcases Verif.writeOpt ['#'] _ i.fragment <;> rfl
    refine (tail _).trans ?_
    rw [displayPath_fst]
    rcases i.path with s | p
    · simp only
      by_cases h : i.op.case_pct = true
      · simp only [if_pos h]
      · simp only [if_neg h]; rfl
    · rfl

/-! ### The bounds -/

theorem byte_at_lt {p : PathToNormalize} {c b : Nat} (h : p.byte_at c = some b) : c < p.len := by
  rw [byte_at_text] at h
  rw [len_text, ← utf8s_length]
  exact (List.getElem?_eq_some_iff.1 h).1

/-- A search for the next slash costs what is up to it, and the slash. -/
theorem find_next_slash_from_snd {p : PathToNormalize} {n : Nat} (hn : n ≤ p.len) {o : Option Nat}
    (h : p.find_next_slash_from n = some o) :
    (find_next_slash_from p n).2 + n ≤ o.getD p.len + 4 ∧ n ≤ o.getD p.len ∧ o.getD p.len ≤ p.len := by
  have hl : p.len = blen p.front + p.back.elim 0 blen := by
    unfold PathToNormalize.len; rcases p.back <;> rfl
  have key : ∀ (s : Str), n + blen s ≤ p.len → (findB s '/').map (fun pos => n + pos) = o →
      (bind (find_split s '/') fun o => ret (some (o.map fun x => n + blen x.1))).2 + n ≤ o.getD p.len + 4 ∧
        n ≤ o.getD p.len ∧ o.getD p.len ≤ p.len := by
    intro s hs ho
    obtain ⟨h1, h2⟩ := findSplitP_snd (· == '/') s
    simp only [bind_snd, ret_snd, Nat.add_zero]
    unfold findB Verif.find_split at ho
    unfold find_split
    rcases hf : Verif.findSplitP (· == '/') s with _ | ⟨a, b⟩
    · rw [hf] at ho
      subst ho
      simp only [Option.map_none, Option.getD_none]
      omega
    · rw [hf] at ho
      subst ho
      have := h1 _ _ hf
      simp only [Option.map_some, Option.getD_some]
      omega
  unfold PathToNormalize.find_next_slash_from at h
  unfold find_next_slash_from
  by_cases hc : n < blen p.front
  · rw [if_pos hc] at h ⊢
    rw [Option.map_eq_some_iff] at h
    obtain ⟨s, hs, e⟩ := h
    rw [hs]
    have := sliceFrom_len hs
    exact key s (by omega) e
  · rw [if_neg hc] at h ⊢
    rcases hb : p.back with _ | b
    · rw [hb] at h
      cases h
      simp only [ret_snd, Option.getD_none]
      omega
    · rw [hb] at h hl
      simp only [Option.map_eq_some_iff] at h
      obtain ⟨s, hs, e⟩ := h
      simp only [hs]
      have := sliceFrom_len hs
      simp only [Option.elim_some] at hl
      exact key s (by omega) e

theorem iterNext_snd (p : PathToNormalize) (c : Nat) :
    (Verif.iterNext p c = some none → (iterNext p c).2 = 1) ∧
    ∀ g, Verif.iterNext p c = some (some g) →
      (iterNext p c).2 + c ≤ g.stop + 5 ∧ c ≤ g.start ∧ g.start ≤ g.stop ∧ g.stop ≤ p.len := by
  unfold iterNext Verif.iterNext
  rw [bind_snd]
  rcases hb : p.byte_at c with _ | b
  · simp
  · have hlt := byte_at_lt hb
    simp only [bind_snd, ret_snd]
    refine ⟨?_, ?_⟩
    · intro h
      rw [Option.map_eq_some_iff] at h
      obtain ⟨_, _, e⟩ := h
      cases e
    · intro g h
      rw [Option.map_eq_some_iff] at h
      obtain ⟨o, ho, e⟩ := h
      cases e
      by_cases hs : (b == 47) = true
      · simp only [hs, if_true] at ho ⊢
        have := find_next_slash_from_snd (by omega) ho
        rcases o with _ | e <;> simp only [Option.getD_none, Option.getD_some] at this ⊢ <;> omega
      · simp only [hs, Bool.false_eq_true, if_false] at ho ⊢
        have := find_next_slash_from_snd (by omega) ho
        rcases o with _ | e <;> simp only [Option.getD_none, Option.getD_some] at this ⊢ <;> omega

/-- An iteration over the segments goes over the path once. -/
theorem iterList_snd (p : PathToNormalize) : ∀ (f c : Nat) (L : List PathSegment),
    Verif.iterList p f c = some L → c ≤ p.len → (iterList p f c).2 + c ≤ p.len + 5 * L.length + 1
  | 0, _, _, h, _ => by cases h
  | f + 1, c, L, h, hc => by
    obtain ⟨h1, h2⟩ := iterNext_snd p c
    unfold iterList
    unfold Verif.iterList at h
    rw [bind_snd, iterNext_fst]
    rcases hi : Verif.iterNext p c with _ | _ | g
    · rw [hi] at h; cases h
    · have := h1 hi
      simp only [ret_snd]
      omega
    · have h3 := h2 g hi
      rw [hi] at h
      simp only [Option.map_eq_some_iff] at h
      obtain ⟨M, hM, rfl⟩ := h
      have := iterList_snd p f g.stop M hM h3.2.2.2
      simp only [bind_snd, ret_snd, List.length_cons]
      omega

theorem segments_snd {p : PathToNormalize} {L : List PathSegment} (h : Verif.segments p = some L) :
    (segments p).2 ≤ p.len + 5 * L.length + 1 := by
  have := iterList_snd p (p.len + 1) 0 L h (Nat.zero_le _)
  unfold segments
  omega

theorem skippedLen_snd (p : PathToNormalize) : ∀ (L : List PathSegment) (acc : Nat),
    (skippedLen p L acc).2 ≤ 6 * L.length
  | [], _ => Nat.zero_le _
  | g :: r, acc => by
    have := skippedLen_snd p r g.stop
    unfold skippedLen
    rw [bind_snd]
    have hk : (kind g p).2 ≤ 6 := Nat.min_le_left ..
    simp only [List.length_cons]
    rw [kind_fst]
    rcases g.kind p with _ | _ | _ | _ <;> simp only [ret_snd] <;> omega

theorem scan_snd (p : PathToNormalize) : ∀ (L : List PathSegment) (st : QState), (scan p L st).2 ≤ 6 * L.length
  | [], _ => Nat.zero_le _
  | g :: r, st => by
    have ih := scan_snd p r
    have hk : (kind g p).2 ≤ 6 := Nat.min_le_left ..
    have key : ∀ st', (kind g p).2 + (scan p r st').2 ≤ 6 * (r.length + 1) := fun st' => by
      have := ih st'; omega
    unfold scan
    rw [bind_snd, List.length_cons, kind_fst]
    rcases g.kind p with _ | _ | _ | _
    · simp only [ret_snd]; omega
    · exact key _
    · exact key _
    · by_cases h : st.level < st.queue.length
      · simp only [if_pos h]
        rcases g.segment p with _ | n
        · simp only [ret_snd]; omega
        · exact key _
      · simp only [if_neg h]
        exact key _

theorem segment_le {g : PathSegment} {p : PathToNormalize} {n : Str} (h : g.segment p = some n) : blen n ≤ p.len := by
  unfold PathSegment.segment at h
  unfold PathToNormalize.len
  rcases hs : slice p.front g.start g.stop with _ | s
  · rw [hs] at h
    rcases hb : p.back with _ | b
    · rw [hb] at h; cases h
    · rw [hb] at h
      simp only at h
      split at h
      · cases h
      · obtain ⟨_, x, y, e, _, _⟩ := slice_some_le h
        simp only
        rw [e]
        simp only [blen_append]
        omega
  · rw [hs] at h
    cases h
    obtain ⟨_, x, y, e, _, _⟩ := slice_some_le hs
    rw [e]
    simp only [blen_append]
    omega

theorem scan_queue (p : PathToNormalize) : ∀ (L : List PathSegment) (st st' : QState),
    (∀ s, some s ∈ st.queue → blen s ≤ p.len) → PathToNormalize.scan p L st = some st' →
    st'.queue.length = st.queue.length ∧ ∀ s, some s ∈ st'.queue → blen s ≤ p.len
  | [], st, st', hq, h => by
    cases h; exact ⟨rfl, hq⟩
  | g :: r, st, st', hq, h => by
    unfold PathToNormalize.scan at h
    rcases hk : g.kind p with _ | _ | _ | _
    · rw [hk] at h; cases h
    · rw [hk] at h
      exact scan_queue p r { st with may := true } st' hq h
    · rw [hk] at h
      have := scan_queue p r _ _ (by
        intro s hs
        rcases List.mem_or_eq_of_mem_set hs with hs | hs
        · exact hq s hs
        · cases hs) h
      simp only [List.length_set] at this
      exact this
    · rw [hk] at h
      simp only at h
      by_cases hl : st.level < st.queue.length
      · rw [if_pos hl] at h
        rcases hg : g.segment p with _ | n
        · rw [hg] at h; cases h
        · rw [hg] at h
          have := scan_queue p r _ _ (by
            intro s hs
            rcases List.mem_or_eq_of_mem_set hs with hs | hs
            · exact hq s hs
            · cases hs; exact segment_le hg) h
          simp only [List.length_set] at this
          exact this
      · rw [if_neg hl] at h
        exact scan_queue p r { st with level := st.level + 1 } st' hq h

theorem writeText_snd (S : Spec) (op : NormalizationMode) (s : Str) : (writeText S op s).2 ≤ 2 * blen s := by
  unfold writeText
  by_cases h : op.case_pct = true
  · rw [if_pos h]; exact pct_case_go_snd S _ _
  · rw [if_neg h]; exact Nat.zero_le _

theorem emitQueue_snd (S : Spec) (fs auth : Bool) (op : NormalizationMode) (n : Nat) :
    ∀ (L : List (Option Str)) (o : Option Bool), (∀ s, some s ∈ L → blen s ≤ n) →
    (emitQueue S fs auth op L o).2 ≤ 2 * (n * L.length)
  | [], _, _ => Nat.zero_le _
  | none :: r, o, h => by
    unfold emitQueue
    have := emitQueue_snd S fs auth op n r o fun s hs => h s (List.mem_cons_of_mem _ hs)
    rw [List.length_cons, Nat.mul_add]
    omega
  | some s :: r, o, h => by
    have h1 := h s (List.mem_cons_self ..)
    have h2 := writeText_snd S op s
    unfold emitQueue emit_segment
    rw [bind_snd, List.length_cons, Nat.mul_add]
    simp only
    rcases PathToNormalize.emit_segment S o fs s auth op with _ | ⟨t, o'⟩
    · simp only [ret_snd]; omega
    · have := emitQueue_snd S fs auth op n r o' fun s hs => h s (List.mem_cons_of_mem _ hs)
      simp only [bind_snd, ret_snd]
      omega

theorem remove_start_len {p q : PathToNormalize} {n : Nat} (h : p.remove_start n = some q) : q.len ≤ p.len := by
  unfold PathToNormalize.remove_start at h
  unfold PathToNormalize.len
  by_cases hn : n < blen p.front
  · rw [if_pos hn, Option.map_eq_some_iff] at h
    obtain ⟨f, hf, rfl⟩ := h
    have := sliceFrom_len hf
    simp only
    omega
  · rw [if_neg hn] at h
    cases h
    rcases p.back with _ | b
    · simp
    · simp only [Option.bind_some]
      rcases hs : sliceFrom b (n - blen p.front) with _ | s
      · simp
      · have := sliceFrom_len hs
        simp only [Option.getD_some]
        omega

/-- One round of writing segments. -/
theorem resolve_prefixes_snd {S : Spec} {op : NormalizationMode} {auth : Bool} {o : Option Bool}
    {p : PathToNormalize} (hi : p.Inv) {L : List PSeg} (h : p.text = pathText L) (hok : OKSegs L) :
    (resolve_and_write_path_prefixes S op auth o true p).2 ≤ 40 * p.len + 2 := by
  have hm := segs_length_le hok
  rw [← h, ← len_text] at hm
  have hsplit : L.takeWhile isDots ++ L.dropWhile isDots = L := List.takeWhile_append_dropWhile
  have hskip := skippedLen_eq hi [] L h hok
  rw [List.nil_append] at hskip
  simp only [pathText_nil, blen] at hskip
  generalize L.takeWhile isDots = D at hsplit hskip
  generalize L.dropWhile isDots = P at hsplit
  obtain ⟨q, hr1, ht1, hi1⟩ := remove_start_eq hi (a := pathText D) (b := pathText P)
    (by rw [h, ← pathText_append, hsplit])
  have hokP : OKSegs P := by rw [← hsplit] at hok; exact hok.right
  have hmP : P.length ≤ L.length := by rw [← hsplit]; simp
  have hs1 := segments_eq hi h hok
  have hs2 := segments_eq hi1 ht1 hokP
  have c1 := segments_snd hs1
  have c2 := segments_snd hs2
  rw [posList_length] at c1 c2
  have c3 := skippedLen_snd p (posList L 0) 0
  have c4 := scan_snd q (posList P 0) ⟨List.replicate QUEUE_SIZE none, false, 0, 0, true⟩
  rw [posList_length] at c3 c4
  have hq := remove_start_len hr1
  unfold resolve_and_write_path_prefixes
  by_cases hc : (p.is_empty || !true) = true
  · rw [if_pos hc]; exact Nat.zero_le _
  · rw [if_neg hc, bind_snd, segments_fst, hs1]
    simp only [bind_snd, skippedLen_fst]
    rw [hskip]
    simp only [hr1]
    by_cases he : q.is_empty = true
    · rw [if_pos he, ret_snd]; omega
    · rw [if_neg he, bind_snd, segments_fst, hs2]
      simp only [bind_snd, scan_fst]
      rcases hst : PathToNormalize.scan q (posList P 0) ⟨List.replicate QUEUE_SIZE none, false, 0, 0, true⟩ with _ | st
      · simp only [ret_snd]; omega
      · obtain ⟨k1, k2⟩ := scan_queue q _ _ _ (by intro s hs; simp at hs) hst
        have c5 := emitQueue_snd S st.first_has_slash auth op q.len st.queue o k2
        rw [k1] at c5
        simp only [List.length_replicate, QUEUE_SIZE] at c5
        simp only [bind_snd, emitQueue_fst]
        rcases PathToNormalize.emitQueue S st.first_has_slash auth op st.queue o with _ | ⟨t, o'⟩
        · simp only [ret_snd]; omega
        · simp only [ret_snd]; omega

theorem whileLoop_snd {S : Spec} {op : NormalizationMode} {auth : Bool} (n : Nat) (fuel : Nat)
    {p : PathToNormalize} {may : Bool} (hi : p.Inv) {L E : List PSeg} (h : p.text = pathText L) (hok : OKSegs L)
    (hn : ∀ g ∈ L, TextOK op g.2) (hE : E = [] ∨ AllSlash L) (hl : p.len ≤ n) :
    8 * (whileLoop S op auth fuel (onlySlash auth E) may p).2 ≤ (40 * n + 2) * (L.length + 16) ∧
    ((∀ g ∈ L, isDots g = true) → (whileLoop S op auth fuel (onlySlash auth E) may p).2 ≤ 40 * n + 2) ∧
    ∀ t o q, (whileLoop S op auth fuel (onlySlash auth E) may p).1 = some (t, some (o, q)) → q.len ≤ n := by
  induction fuel generalizing p may L E with
  | zero => exact ⟨Nat.zero_le _, fun _ => Nat.zero_le _, by intro t o q e; cases e⟩
  | succ fuel ih =>
    unfold whileLoop
    by_cases hc : (!p.is_empty && may) = true
    · rw [if_pos hc]
      simp only [Bool.and_eq_true, Bool.not_eq_true'] at hc
      obtain ⟨he, rfl⟩ := hc
      have hL : L ≠ [] := by
        rintro rfl
        rw [(inv_empty hi).2 (by rw [h]; rfl)] at he
        cases he
      have c1 := resolve_prefixes_snd (S := S) (op := op) (auth := auth) (o := onlySlash auth E) hi h hok
      have hexp : (40 * n + 2) * (L.length + 16) = (40 * n + 2) * L.length + 16 * (40 * n + 2) := by
        rw [Nat.mul_add]; omega
      rcases resolve_step (S := S) (op := op) (auth := auth) hi h hok hL hn hE with
        ⟨t, h1, _⟩ | ⟨t, Q, R, may', p', h1, _, h3, ⟨N, hN, hNR, h8⟩, h4, h5, h6, _, _⟩
      · rw [bind_snd, bind_fst, resolve_prefixes_fst, h1]
        simp only [ret_snd, ret_fst]
        refine ⟨by omega, by intro _; omega, by intro t o q e; cases e⟩
      · have hsome : ∃ g ∈ L, isDots g = false := by
          rw [← resolvePrefixesT_fst] at h1
          obtain ⟨c, hc⟩ := T_some h1
          rcases resolvePrefixesT_calls hi h hok hc with ⟨_, e, _⟩ | ⟨_, _, _, _, _, _, hs, _⟩
          · cases e
          · exact hs
        have hal : AllSlash R := by rw [hNR] at hok; exact hok.tail_of_append hN
        have hlen : L.length = N.length + R.length := by rw [hNR]; simp
        have hp' : p'.len ≤ n := by
          have : blen (pathText L) = blen (pathText N) + blen (pathText R) := by
            rw [hNR, pathText_append, blen_append]
          rw [len_text, h5]
          rw [len_text, h] at hl
          omega
        obtain ⟨i1, i2, i3⟩ := ih (p := p') (may := may') (L := R) (E := E ++ Q) h4 h5 hal.ok
          (fun g hg => hn g (by rw [hNR]; simp [hg])) (.inr hal) hp'
        rw [bind_snd, bind_fst, resolve_prefixes_fst, h1]
        simp only [bind_snd, ret_snd, bind_fst, ret_fst, Nat.add_zero]
        refine ⟨?_, ?_, ?_⟩
        · by_cases hR : ∃ g ∈ R, isDots g = false
          · have h8' := h8 hR
            have e1 : (40 * n + 2) * (R.length + 16) + 8 * (40 * n + 2) ≤ (40 * n + 2) * (L.length + 16) := by
              rw [show 8 * (40 * n + 2) = (40 * n + 2) * 8 from Nat.mul_comm .., ← Nat.mul_add]
              exact Nat.mul_le_mul_left _ (by omega)
            omega
          · have := i2 fun g hg => by
              cases hd : isDots g with
              | true => rfl
              | false => exact absurd ⟨g, hg, hd⟩ hR
            omega
        · intro hall
          obtain ⟨g, hg, hd⟩ := hsome
          rw [hall g hg] at hd; cases hd
        · intro t' o' q' e
          rw [Option.map_eq_some_iff] at e
          obtain ⟨⟨x1, x2⟩, hx, e⟩ := e
          simp only [Prod.mk.injEq] at e
          obtain ⟨_, rfl⟩ := e
          exact i3 _ _ _ hx
    · rw [if_neg hc]
      refine ⟨Nat.zero_le _, fun _ => Nat.zero_le _, ?_⟩
      intro t o q e
      cases e
      exact hl

theorem dots_le {n : Str} (h : SegmentKind.from_segment n ≠ .normal) : blen n ≤ 6 := by
  unfold SegmentKind.from_segment at h
  by_cases hc : (!(decide (1 ≤ blen n) && decide (blen n ≤ 6))) = true
  · rw [if_pos hc] at h; exact absurd rfl h
  · simp at hc; omega

/-- Removing ignorable segments, and that the path gets no longer. -/
theorem remove_ignorable_go_snd (fuel : Nat) {p : PathToNormalize} (hi : p.Inv) {L : List PSeg}
    (h : p.text = pathText L) (hok : OKSegs L) :
    (remove_ignorable_go fuel p).2 ≤ 17 * L.length + p.len + 11 ∧
    ∀ q, (remove_ignorable_go fuel p).1 = some q → q.len ≤ p.len := by
  induction fuel generalizing p L with
  | zero => exact ⟨Nat.zero_le _, by intro q e; cases e⟩
  | succ fuel ih =>
    obtain ⟨n1, n2⟩ := iterNext_snd p 0
    unfold remove_ignorable_go
    rw [bind_snd, bind_fst, iterNext_fst]
    match L with
    | [] =>
      have := iterNext_end (p := p) (L := []) h
      simp only [pathText_nil, blen] at this
      have := n1 this
      rw [‹Verif.iterNext p 0 = some none›]
      simp only [ret_snd, ret_fst]
      exact ⟨by omega, by rintro q ⟨⟩; exact Nat.le_refl _⟩
    | g :: r =>
      have hit := iterNext_eq hi (L1 := []) (g := g) (L2 := r) h hok
      have hkd := kindOf hi (L1 := []) (g := g) (L2 := r) h hok
      simp only [pathText_nil, blen, Nat.zero_add] at hit hkd
      have n3 := n2 _ hit
      rw [hit]
      simp only at n3 ⊢
      obtain ⟨b, n⟩ := g
      have hk6 : ∀ x, (kind x p).2 ≤ 6 := fun x => Nat.min_le_left ..
      cases b with
      | true =>
        simp only [if_true, ret_snd, ret_fst]
        exact ⟨by omega, by rintro q ⟨⟩; exact Nat.le_refl _⟩
      | false =>
        simp only [Bool.false_eq_true, if_false, bind_snd, bind_fst, kind_fst] at hkd n3 ⊢
        rw [hkd]
        have hk := hk6 ⟨false, 0, blen (segText (false, n))⟩
        have hbl : blen (segText (false, n)) = blen n := by simp [segText]
        by_cases hd : isDots (false, n) = true
        · obtain ⟨p', h1, h2, L', h3, h4, h5, h6⟩ := ignorable_step hi h hok hd
          have hnn := isDots_kind.1 hd
          have hle : blen n ≤ 6 := dots_le hnn
          obtain ⟨i1, i2⟩ := ih h2 h3 h4
          have hpl := remove_start_len h1
          cases hkk : SegmentKind.from_segment n with
          | normal => exact absurd hkk hnn
          | dot =>
            simp only [hbl, h1, List.length_cons]
            simp only [hbl] at hk n3
            exact ⟨by omega, fun q e => by have := i2 q e; omega⟩
          | dotDot =>
            simp only [hbl, h1, List.length_cons]
            simp only [hbl] at hk n3
            exact ⟨by omega, fun q e => by have := i2 q e; omega⟩
        · have hkk : SegmentKind.from_segment n = .normal := by simpa [isDots] using hd
          rw [hkk]
          simp only [ret_snd, ret_fst]
          exact ⟨by omega, by rintro q ⟨⟩; exact Nat.le_refl _⟩

/-- Writing a path. -/
theorem fmt_write_normalize_snd {S : Spec} {op : NormalizationMode} {auth : Bool} {p : PathToNormalize} (hi : p.Inv)
    {L : List PSeg} (h : p.text = pathText L) (hok : OKSegs L) (hn : TextOK op p.text) :
    8 * (fmt_write_normalize S op auth p).2 ≤
      (40 * p.len + 2) * (L.length + 17) + 136 * L.length + 24 * p.len + 112 := by
  have hl : p.len = blen p.front + p.back.elim 0 blen := by
    unfold PathToNormalize.len; rcases p.back <;> rfl
  unfold fmt_write_normalize
  by_cases he : p.is_empty = true
  · rw [if_pos he]; exact Nat.zero_le _
  · rw [if_neg he]
    by_cases hc : (op == .preserve && !auth && !p.starts_with_slash) = true
    · rw [if_pos hc, bind_snd]
      have k1 : (pct_case_normalized S p.front).2 ≤ 2 * blen p.front := pct_case_go_snd S _ _
      rcases (pct_case_normalized S p.front).1 with _ | f
      · simp only [ret_snd]; omega
      · rcases hb : p.back with _ | b
        · simp only [ret_snd]; omega
        · have k2 : (pct_case_normalized S b).2 ≤ 2 * blen b := pct_case_go_snd S _ _
          rw [hb] at hl
          simp only [Option.elim_some] at hl
          simp only [bind_snd, ret_snd]
          omega
    · rw [if_neg hc, bind_snd]
      obtain ⟨r1, r2⟩ := remove_ignorable_go_snd (p.len + 1) hi h hok
      obtain ⟨q, h1, h2, h3⟩ := remove_ignorable_prefix_eq hi h hok
      unfold remove_ignorable_prefix at h1
      have r3 := r2 q (by rw [remove_ignorable_go_fst]; exact h1)
      rw [remove_ignorable_go_fst, h1]
      have hok' := stripRel_ok hok
      have hn' : ∀ g ∈ stripRel L, TextOK op g.2 := by
        rw [h] at hn
        exact stripRel_names (P := fun s => TextOK op s) (names_ok hok hn)
      have hsl : (stripRel L).length ≤ L.length + 1 := by
        rw [← removeIgnorableT_fst] at h1
        obtain ⟨c, hc⟩ := T_some h1
        have := removeIgnorableT_bound _ hi h hok hc
        omega
      simp only
      by_cases he' : q.is_empty = true
      · rw [if_pos he', ret_snd]; omega
      · rw [if_neg he', bind_snd]
        obtain ⟨b1, _, b3⟩ := whileLoop_snd (S := S) (op := op) (auth := auth) p.len (q.len + 1)
          (may := true) (E := []) h2 h3 hok' hn' (.inl rfl) r3
        rw [show onlySlash auth [] = none from rfl] at b1 b3
        have b4 : (40 * p.len + 2) * ((stripRel L).length + 16) ≤ (40 * p.len + 2) * (L.length + 17) :=
          Nat.mul_le_mul_left _ (by omega)
        revert b3
        rcases (whileLoop S op auth (q.len + 1) none true q).1 with _ | ⟨t, _ | ⟨o, w⟩⟩
        · intro _; simp only [ret_snd]; omega
        · intro _; simp only [ret_snd]; omega
        · intro b3
          have b5 := b3 _ _ _ rfl
          have hw : w.len = blen w.front + w.back.elim 0 blen := by
            unfold PathToNormalize.len; rcases w.back <;> rfl
          simp only [bind_snd, ret_snd, writeRest]
          omega

theorem stripColon_le (s : Str) : blen (stripColon s) ≤ blen s := by
  unfold stripColon
  split
  · rename_i r h
    have : s = r.reverse ++ [':'] := by rw [← List.reverse_reverse s, h, List.reverse_cons]
    rw [this, blen_append]
    omega
  · exact Nat.le_refl _

theorem normalize_host_port_snd (S : Spec) (s : Str) : (normalize_host_port S s).2 ≤ 3 * blen s + 1 := by
  unfold normalize_host_port
  have h1 := stripColon_le s
  have h2 : (is_ascii_only_host (stripColon s)).2 ≤ blen (stripColon s) := is_ascii_only_host_go_snd _ _
  have h3 : (normalized_ascii_only_host (stripColon s)).2 ≤ blen (stripColon s) := ascii_host_go_snd _ _
  have h4 : (pct_case_normalized S (stripColon s)).2 ≤ 2 * blen (stripColon s) := pct_case_go_snd S _ _
  rw [bind_snd, bind_snd]
  simp only
  rcases (is_ascii_only_host (stripColon s)).1 with _ | _ | _
  · simp only [ret_snd]; omega
  · simp only; omega
  · simp only; omega

theorem normalize_authority_snd (S : Spec) (s : Str) : (normalize_authority S s).2 ≤ 4 * blen s + 1 := by
  unfold normalize_authority
  have h1 := rfind_split_hole_snd s '@'
  rw [bind_snd, rfind_split_hole_fst]
  rcases hs : Verif.rfind_split_hole s '@' with _ | ⟨u, h⟩
  · have := normalize_host_port_snd S s
    simp only
    omega
  · have h2 := rfind_split_hole_len hs
    have h3 : (pct_case_normalized S u).2 ≤ 2 * blen u := pct_case_go_snd S _ _
    have h4 := normalize_host_port_snd S h
    simp only [bind_snd]
    rcases (pct_case_normalized S u).1 with _ | u'
    · simp only [ret_snd]; omega
    · simp only [bind_snd, ret_snd]; omega

/-- The bytes of an optional component. -/
def oblen (o : Option Str) : Nat := o.elim 0 blen

theorem writeOpt_snd (pre : Str) (f : Str → T (Option Str)) (k c : Nat) (h : ∀ x, (f x).2 ≤ k * blen x + c)
    (o : Option Str) : (writeOpt pre f o).2 ≤ k * oblen o + c := by
  unfold writeOpt oblen
  rcases o with _ | x
  · exact Nat.zero_le _
  · simp only [bind_snd, ret_snd, Option.elim_some]
    exact h x

/-- Writing everything, up to the path. -/
theorem display_snd (S : Spec) (i : NormalizationInput) :
    (display S i).2 ≤ 4 * (blen i.scheme + oblen i.authority + oblen i.query + oblen i.fragment) + 1 +
      (displayPath S i).2 := by
  have h1 : (if i.op.case_pct = true then normalize_scheme i.scheme else ret i.scheme).2 ≤ blen i.scheme := by
    by_cases h : i.op.case_pct = true
    · rw [if_pos h]; exact Nat.le_refl _
    · rw [if_neg h]; exact Nat.zero_le _
  have h2 := writeOpt_snd ['/', '/'] (fun a => if i.op.case_pct = true then normalize_authority S a else ret (some a))
    4 1 (by
      intro x
      by_cases h : i.op.case_pct = true
      · rw [if_pos h]; exact normalize_authority_snd S x
      · rw [if_neg h]; exact Nat.zero_le _) i.authority
  have hq : ∀ x, (if i.op.case_pct = true then pct_case_normalized S x else ret (some x)).2 ≤ 2 * blen x + 0 := by
    intro x
    by_cases h : i.op.case_pct = true
    · rw [if_pos h]; exact pct_case_go_snd S _ _
    · rw [if_neg h]; exact Nat.zero_le _
  have h3 := writeOpt_snd ['?'] _ 2 0 hq i.query
  have h4 := writeOpt_snd ['#'] _ 2 0 hq i.fragment
  unfold display
  simp only [bind_snd]
  rcases (writeOpt ['/', '/'] (fun a => if i.op.case_pct = true then normalize_authority S a else ret (some a))
    i.authority).1 with _ | a
  · simp only [ret_snd]; omega
  · simp only [bind_snd]
    rcases (displayPath S i).1 with _ | p
    · simp only [ret_snd]; omega
    · simp only [bind_snd]
      rcases (writeOpt ['?'] (fun q => if i.op.case_pct = true then pct_case_normalized S q else ret (some q))
        i.query).1 with _ | q
      · simp only [ret_snd]; omega
      · simp only [bind_snd]
        rcases (writeOpt ['#'] (fun q => if i.op.case_pct = true then pct_case_normalized S q else ret (some q))
          i.fragment).1 with _ | r <;> simp only [ret_snd] <;> omega

/-- Writing everything. -/
theorem display_bound {S : Spec} {x : Str} {op : NormalizationMode} {p : Parts} {np : NPath} (hv : p.Valid S)
    (hnp : np = .done p.path ∨ ∃ q : PathToNormalize, np = .needsProcessing q ∧ q.Inv ∧ q.text = p.path)
    {n m : Nat} (hn : blen x + oblen p.authority + blen p.path + oblen p.query + oblen p.fragment ≤ n)
    (hm : p.path.count '/' ≤ m) :
    8 * (display S ⟨x, p.authority, np, p.query, p.fragment, op⟩).2 ≤ 40 * (n * m) + 776 * n + 138 * m + 292 := by
  have hd := display_snd S ⟨x, p.authority, np, p.query, p.fragment, op⟩
  simp only at hd
  have key : ∀ q : PathToNormalize, q.Inv → q.text = p.path →
      8 * (fmt_write_normalize S op p.authority.isSome q).2 ≤ 40 * (n * m) + 744 * n + 138 * m + 284 := by
    intro q h1 h2
    obtain ⟨k1, k2⟩ := pathSegs_spec p.path
    have hb := fmt_write_normalize_snd (S := S) (op := op) (auth := p.authority.isSome) h1 (L := pathSegs p.path)
      (by rw [h2, k2]) k1 (by rw [h2]; exact hv.textOK)
    have hl := pathSegs_length p.path
    have hlen : q.len ≤ n := by rw [len_text, h2]; omega
    have : (40 * q.len + 2) * ((pathSegs p.path).length + 17) ≤ (40 * n + 2) * (m + 18) :=
      Nat.mul_le_mul (by omega) (by omega)
    have e : (40 * n + 2) * (m + 18) = 40 * (n * m) + 720 * n + 2 * m + 36 := by
      simp only [Nat.add_mul, Nat.mul_add, Nat.mul_assoc]; omega
    omega
  have hp : 8 * (displayPath S ⟨x, p.authority, np, p.query, p.fragment, op⟩).2 ≤
      40 * (n * m) + 744 * n + 138 * m + 284 := by
    unfold displayPath
    rcases hnp with rfl | ⟨q, rfl, h1, h2⟩
    · simp only
      by_cases ho : op.case_pct = true
      · rw [if_pos ho]
        have := from_single_path_inv p.path
        exact key _ this.1 this.2
      · rw [if_neg ho]; exact Nat.zero_le _
    · exact key q h1 h2
  omega

theorem oblen_optSuf (d : Str) (o : Option Str) : oblen o ≤ blen (optSuf d o) := by
  rcases o with _ | x
  · exact Nat.zero_le _
  · simp [oblen, optSuf]

theorem recompose_blen (p : Parts) :
    oblen p.scheme + oblen p.authority + blen p.path + oblen p.query + oblen p.fragment ≤ blen p.recompose := by
  unfold Parts.recompose
  have h1 := oblen_optSuf ['/', '/'] p.authority
  have h2 := oblen_optSuf ['?'] p.query
  have h3 := oblen_optSuf ['#'] p.fragment
  have h4 : oblen p.scheme ≤ blen (optPre p.scheme [':']) := by
    rcases p.scheme with _ | x
    · exact Nat.zero_le _
    · simp [oblen, optPre]
  simp only [blen_append]
  omega

theorem recompose_blen_auth {p : Parts} (h : p.authority.isSome = true) :
    oblen p.scheme + oblen p.authority + blen p.path + oblen p.query + oblen p.fragment + 2 ≤ blen p.recompose := by
  unfold Parts.recompose
  obtain ⟨a, ha⟩ := Option.isSome_iff_exists.1 h
  have h1 : oblen p.authority + 2 = blen (optSuf ['/', '/'] p.authority) := by
    rw [ha]
    have : ('/' : Char).utf8Size = 1 := by decide
    simp only [oblen, optSuf, Option.elim_some, blen_append, blen]
    omega
  have h2 := oblen_optSuf ['?'] p.query
  have h3 := oblen_optSuf ['#'] p.fragment
  have h4 : oblen p.scheme ≤ blen (optPre p.scheme [':']) := by
    rcases p.scheme with _ | x
    · exact Nat.zero_le _
    · simp [oblen, optPre]
  simp only [blen_append]
  omega

theorem merge_blen (b r : Parts) :
    oblen (mergeReference b r).scheme + oblen (mergeReference b r).authority + blen (mergeReference b r).path +
      oblen (mergeReference b r).query + oblen (mergeReference b r).fragment ≤ blen b.recompose + blen r.recompose := by
  have h1 := recompose_blen b
  have h2 := recompose_blen r
  unfold mergeReference
  split
  · omega
  · split
    · simp only; omega
    · split
      · simp only
        split <;> omega
      · simp only
        split
        · omega
        · unfold mergePaths
          split
          · rename_i h
            simp only [Bool.and_eq_true] at h
            have := recompose_blen_auth h.1
            simp only [blen]
            have : ('/' : Char).utf8Size = 1 := by decide
            omega
          · rw [blen_append]
            have : blen (b.path.reverse.dropWhile (· != '/')).reverse ≤ blen b.path := by
              have hs : b.path = (b.path.reverse.dropWhile (· != '/')).reverse ++
                  (b.path.reverse.takeWhile (· != '/')).reverse := by
                rw [← List.reverse_append, List.takeWhile_append_dropWhile, List.reverse_reverse]
              rw [hs, blen_append]
              simp only [← hs]
              omega
            omega

end Work

/-! ### The theorems -/

/-- **C91**: the counted functions compute what the crate's functions compute, for every input: the
counter only counts. -/
theorem C91_same (S : Spec) (mode : NormalizationMode) (s base ref : Str) :
    (Work.normalize S .default s).1 = normalize S s ∧
    (Work.normalize S .preserve s).1 = normalize_but_preserve_authorityless_relative_path S s ∧
    (Work.resolve S mode base ref).1 = resolve S mode base ref := by
  refine ⟨?_, ?_, ?_⟩
  · unfold Work.normalize normalize Work.from_iri
    rw [Work.bind_fst]
    cases NormalizationInput.from_iri s with
    | none => rfl
    | some i => exact Work.display_fst S _
  · unfold Work.normalize normalize_but_preserve_authorityless_relative_path Work.from_iri
    rw [Work.bind_fst]
    cases NormalizationInput.from_iri s with
    | none => rfl
    | some i => exact Work.display_fst S _
  · unfold Work.resolve resolve Work.with_resolution_params
    rw [Work.bind_fst]
    cases NormalizationInput.with_resolution_params base ref with
    | none => rfl
    | some i => exact Work.display_fst S _

/-- **C91**: splitting and normalizing a valid IRI of `n` bytes with `m` slashes, in every mode, looks at no more than
`(5 n + 18) (m + 22)` bytes. -/
theorem C91_normalize (S : Spec) (mode : NormalizationMode) (s : Str) (h : validate_uri S s = some true) :
    (Work.normalize S mode s).2 ≤ (5 * blen s + 18) * (s.count '/' + 22) := by
  obtain ⟨p, hp, hs, rfl⟩ := iri_parts' h
  obtain ⟨x, hx⟩ := Option.ne_none_iff_exists'.1 hs
  have hinv := from_single_path_inv p.path
  have h1 := (C87_linear p.recompose).2.2.2.2.2.2.1
  have hb := Work.recompose_blen p
  rw [hx] at hb
  have h2 := Work.display_bound (S := S) (x := x) (op := mode) hp (.inr ⟨_, rfl, hinv.1, hinv.2⟩)
    (n := blen p.recompose) (m := p.recompose.count '/') hb (recompose_count p)
  unfold Work.normalize Work.from_iri
  rw [Work.bind_snd]
  simp only [from_iri_eq hp hx, NormalizationInput.withMode]
  generalize blen p.recompose = n at *
  generalize p.recompose.count '/' = m at *
  have e : (5 * n + 18) * (m + 22) = 5 * (n * m) + 110 * n + 18 * m + 396 := by
    simp only [Nat.add_mul, Nat.mul_add, Nat.mul_assoc]; omega
  omega

/-- **C91**: splitting, merging and writing the resolution of a valid reference against a valid base, `n` bytes with
`m` slashes together, in every mode, looks at no more than `(5 n + 18) (m + 22)` bytes. -/
theorem C91_resolve (S : Spec) (mode : NormalizationMode) (base ref : Str)
    (hb : validate_uri S base = some true) (hr : validate_uri_reference S ref = some true) :
    (Work.resolve S mode base ref).2 ≤
      (5 * (blen base + blen ref) + 18) * (base.count '/' + ref.count '/' + 22) := by
  obtain ⟨b, hbv, hbs, rfl⟩ := iri_parts' hb
  obtain ⟨r, hrv, rfl⟩ := reference_parts hr
  obtain ⟨x, np, hx, hi, h1, h2⟩ := resolution_input hbv hbs hrv
  obtain ⟨hm, hms⟩ := merge_valid hbv hbs hrv
  have hnp : np = .done (mergeReference b r).path ∨
      ∃ q : PathToNormalize, np = .needsProcessing q ∧ q.Inv ∧ q.text = (mergeReference b r).path := by
    cases hsp : samePath r with
    | true => exact .inl (h1 hsp)
    | false => exact .inr (h2 hsp)
  have hl := Work.merge_blen b r
  rw [hx] at hl
  have h3 := Work.display_bound (S := S) (x := x) (op := mode) hm hnp
    (n := blen b.recompose + blen r.recompose) (m := b.recompose.count '/' + r.recompose.count '/') hl (merge_count b r)
  have h4 := Work.decompose_iri_reference_snd b.recompose
  have h5 := Work.decompose_iri_reference_snd r.recompose
  unfold Work.resolve Work.with_resolution_params
  rw [Work.bind_snd]
  simp only [hi, NormalizationInput.withMode]
  generalize blen b.recompose = n1 at *
  generalize blen r.recompose = n2 at *
  generalize b.recompose.count '/' + r.recompose.count '/' = m at *
  have e : (5 * (n1 + n2) + 18) * (m + 22) = 5 * ((n1 + n2) * m) + 110 * (n1 + n2) + 18 * m + 396 := by
    simp only [Nat.add_mul, Nat.mul_add, Nat.mul_assoc]; omega
  omega

namespace Work

/-! ### Every step of C82 looks at a byte -/

open PathToNormalize

theorem iterNext_pos (p : PathToNormalize) (c : Nat) : 1 ≤ (iterNext p c).2 := by
  unfold iterNext
  rw [bind_snd]
  exact Nat.le_add_right ..

theorem iterList_ge (p : PathToNormalize) : ∀ (f c : Nat) (L : List PathSegment),
    Verif.iterList p f c = some L → L.length + 1 ≤ (iterList p f c).2
  | 0, _, _, h => by cases h
  | f + 1, c, L, h => by
    have h1 := iterNext_pos p c
    unfold iterList
    unfold Verif.iterList at h
    rw [bind_snd, iterNext_fst]
    rcases hi : Verif.iterNext p c with _ | _ | g
    · rw [hi] at h; cases h
    · rw [hi] at h; cases h
      simp only [ret_snd, List.length_nil]
      omega
    · rw [hi] at h
      simp only [Option.map_eq_some_iff] at h
      obtain ⟨M, hM, rfl⟩ := h
      have := iterList_ge p f g.stop M hM
      simp only [bind_snd, ret_snd, List.length_cons]
      omega

theorem removeIgnorable_ge : ∀ (f : Nat) (p q : PathToNormalize) (c : Nat),
    removeIgnorableT f p = some (q, c) → c ≤ (remove_ignorable_go f p).2
  | 0, _, _, _, h => by cases h
  | f + 1, p, q, c, h => by
    have h1 := iterNext_pos p 0
    unfold remove_ignorable_go
    unfold removeIgnorableT at h
    rw [bind_snd, iterNext_fst]
    revert h
    rcases Verif.iterNext p 0 with _ | _ | g <;> intro h
    · cases h
    · cases h
      exact Nat.le_trans h1 (Nat.le_add_right ..)
    · simp only at h ⊢
      by_cases hs : g.has_leading_slash = true
      · rw [if_pos hs] at h; cases h
        exact Nat.le_trans h1 (Nat.le_add_right ..)
      · rw [if_neg hs] at h
        rw [if_neg hs, bind_snd, kind_fst]
        have key : ∀ o : Option PathToNormalize, (match o with
            | none => none
            | some p => (removeIgnorableT f p).map fun x => (x.1, x.2 + 1)) = some (q, c) →
            c ≤ (iterNext p 0).2 + ((kind g p).2 + (match o with
            | none => ret none
            | some p => remove_ignorable_go f p).2) := by
          intro o ho
          rcases o with _ | p'
          · cases ho
          · simp only [Option.map_eq_some_iff, Prod.mk.injEq] at ho
            obtain ⟨⟨q', c'⟩, h2, rfl, rfl⟩ := ho
            have := removeIgnorable_ge f p' q' c' h2
            simp only
            omega
        revert h
        rcases g.kind p with _ | _ | _ | _ <;> intro h
        · cases h
        · exact key _ h
        · exact key _ h
        · cases h
          exact Nat.le_trans h1 (Nat.le_add_right ..)

theorem skippedLenT_le (p : PathToNormalize) : ∀ (L : List PathSegment) (acc a c : Nat),
    skippedLenT p L acc = some (a, c) → c ≤ L.length + 1
  | [], _, _, _, h => by cases h; exact Nat.le_refl _
  | g :: r, acc, a, c, h => by
    unfold skippedLenT at h
    have key : ((skippedLenT p r g.stop).map fun x => (x.1, x.2 + 1)) = some (a, c) → c ≤ (g :: r).length + 1 := by
      intro h
      simp only [Option.map_eq_some_iff, Prod.mk.injEq] at h
      obtain ⟨⟨a', c'⟩, h2, rfl, rfl⟩ := h
      have := skippedLenT_le p r _ _ _ h2
      simp only [List.length_cons]
      omega
    revert h
    rcases g.kind p with _ | _ | _ | _ <;> intro h
    · cases h
    · exact key h
    · exact key h
    · cases h; simp

theorem resolvePrefixes_ge {S : Spec} {op : NormalizationMode} {auth : Bool} {o : Option Bool} {may : Bool}
    {p : PathToNormalize} {x : Resolved} {c : Nat} (h : resolvePrefixesT S op auth o may p = some (x, c)) :
    c ≤ (resolve_and_write_path_prefixes S op auth o may p).2 := by
  unfold resolvePrefixesT at h
  unfold resolve_and_write_path_prefixes
  by_cases hc : (p.is_empty || !may) = true
  · rw [if_pos hc] at h; cases h
  · rw [if_neg hc] at h
    rw [if_neg hc, bind_snd, segments_fst]
    simp only [Option.bind_eq_bind] at h
    rcases hs : Verif.segments p with _ | L
    · rw [hs] at h; cases h
    · rw [hs, Option.bind_some] at h
      have c1 : L.length + 1 ≤ (segments p).2 := iterList_ge p _ _ L hs
      rcases hk : skippedLenT p L 0 with _ | ⟨a, k⟩
      · rw [hk] at h; cases h
      · rw [hk, Option.bind_some] at h
        have c2 := skippedLenT_le p L 0 a k hk
        have hk' : PathToNormalize.skippedLen p L 0 = some a := by
          rw [← skippedLenT_fst, hk]; rfl
        simp only [bind_snd, skippedLen_fst, hk'] at h ⊢
        revert h
        rcases p.remove_start a with _ | q <;> intro h
        · cases h
        · simp only [Option.bind_some] at h ⊢
          by_cases he : q.is_empty = true
          · rw [if_pos he] at h
            cases h
            omega
          · rw [if_neg he] at h
            rw [if_neg he, bind_snd, segments_fst]
            rcases hs2 : Verif.segments q with _ | M
            · rw [hs2] at h; cases h
            · rw [hs2, Option.bind_some] at h
              have c3 : M.length + 1 ≤ (segments q).2 := iterList_ge q _ _ M hs2
              simp only [Option.bind_eq_some_iff] at h
              obtain ⟨_, _, _, _, _, _, h⟩ := h
              cases h
              omega

theorem whileLoop_ge {S : Spec} {op : NormalizationMode} {auth : Bool} : ∀ (f : Nat) (o : Option Bool) (may : Bool)
    (p : PathToNormalize) (x : Str × Option (Option Bool × PathToNormalize)) (c : Nat),
    whileLoopT S op auth f o may p = some (x, c) → c ≤ (whileLoop S op auth f o may p).2
  | 0, _, _, _, _, _, h => by cases h
  | f + 1, o, may, p, x, c, h => by
    unfold whileLoopT at h
    unfold whileLoop
    by_cases hc : (!p.is_empty && may) = true
    · rw [if_pos hc] at h
      rw [if_pos hc, bind_snd, resolve_prefixes_fst]
      rcases hr : resolvePrefixesT S op auth o may p with _ | ⟨t, k⟩
      · rw [hr] at h; cases h
      · have h1 := resolvePrefixes_ge hr
        have h2 : PathToNormalize.resolve_and_write_path_prefixes S op auth o may p = some t := by
          rw [← resolvePrefixesT_fst, hr]; rfl
        rw [hr] at h
        rw [h2]
        rcases t with t | ⟨t, o', may', p'⟩
        · cases h
          exact Nat.le_trans h1 (Nat.le_add_right ..)
        · simp only [Option.map_eq_some_iff, Prod.mk.injEq] at h
          obtain ⟨⟨x', c'⟩, h3, _, rfl⟩ := h
          have := whileLoop_ge f o' may' p' x' c' h3
          simp only [bind_snd, ret_snd]
          omega
    · rw [if_neg hc] at h
      cases h
      exact Nat.zero_le _

theorem fmt_ge {S : Spec} {op : NormalizationMode} {auth : Bool} {p : PathToNormalize} {t : Str} {c : Nat}
    (h : fmtWriteNormalizeT S op auth p = some (t, c)) : c ≤ (fmt_write_normalize S op auth p).2 := by
  unfold fmtWriteNormalizeT at h
  unfold fmt_write_normalize
  by_cases he : p.is_empty = true
  · rw [if_pos he] at h; cases h; exact Nat.zero_le _
  · rw [if_neg he] at h
    rw [if_neg he]
    by_cases hp : (op == .preserve && !auth && !p.starts_with_slash) = true
    · rw [if_pos hp] at h
      simp only [Option.bind_eq_bind, Option.bind_eq_some_iff] at h
      obtain ⟨f, _, h⟩ := h
      revert h
      rcases p.back with _ | b <;> intro h
      · cases h; exact Nat.zero_le _
      · simp only [Option.bind_eq_some_iff] at h
        obtain ⟨_, _, h⟩ := h
        cases h; exact Nat.zero_le _
    · rw [if_neg hp] at h
      rw [if_neg hp, bind_snd, remove_ignorable_go_fst]
      simp only [Option.bind_eq_bind] at h
      rcases hr : removeIgnorableT (p.len + 1) p with _ | ⟨q, k⟩
      · rw [hr] at h; cases h
      · rw [hr, Option.bind_some] at h
        have h1 := removeIgnorable_ge _ _ _ _ hr
        have h2 : PathToNormalize.remove_ignorable_go (p.len + 1) p = some q := by
          rw [← removeIgnorableT_fst, hr]; rfl
        rw [h2]
        simp only at h ⊢
        by_cases he' : q.is_empty = true
        · rw [if_pos he'] at h
          cases h
          exact Nat.le_trans h1 (Nat.le_add_right ..)
        · rw [if_neg he'] at h
          rw [if_neg he', bind_snd]
          rcases hw : whileLoopT S op auth (q.len + 1) none true q with _ | ⟨⟨x, y⟩, n⟩
          · rw [hw] at h; cases h
          · rw [hw, Option.bind_some] at h
            have h3 := whileLoop_ge _ _ _ _ _ _ hw
            rcases y with _ | ⟨o, w⟩
            · cases h
              omega
            · simp only [Option.map_eq_some_iff, Prod.mk.injEq] at h
              obtain ⟨_, _, _, rfl⟩ := h
              omega

theorem displayPath_ge {S : Spec} {i : NormalizationInput} {y : Str} {c : Nat} (h : i.pathT S = some (y, c)) :
    c ≤ (displayPath S i).2 := by
  unfold NormalizationInput.pathT at h
  unfold displayPath
  revert h
  rcases i.path with s | p <;> intro h
  · simp only at h ⊢
    by_cases hc : i.op.case_pct = true
    · rw [if_pos hc] at h
      rw [if_pos hc]
      exact fmt_ge h
    · rw [if_neg hc] at h; cases h; exact Nat.zero_le _
  · exact fmt_ge h

theorem display_ge {S : Spec} {i : NormalizationInput} {t : Str} (h : i.display S = some t) :
    (displayPath S i).2 ≤ (display S i).2 := by
  rw [← display_fst] at h
  unfold display at h ⊢
  simp only [bind_snd, bind_fst] at h ⊢
  revert h
  rcases (writeOpt ['/', '/'] (fun a => if i.op.case_pct = true then normalize_authority S a else ret (some a))
    i.authority).1 with _ | a <;> intro h
  · cases h
  · simp only [bind_snd]
    omega

end Work

/-- **C91**: the bound is attained up to the factor: for every `m` an IRI with `m + 1` slashes and `2 m + 4` bytes
makes normalization look at no less than `m² / 16` bytes. -/
theorem C91_attained (S : Spec) (mode : NormalizationMode) (m : Nat) :
    ∃ s, validate_uri S s = some true ∧ s.count '/' = m + 1 ∧ blen s = 2 * m + 4 ∧
      m * m ≤ 16 * (Work.normalize S mode s).2 := by
  obtain ⟨h1, h2, t, c, h3, h4⟩ := C82_attained S mode m
  refine ⟨deepIri m, h1, h2, ?_, Nat.le_trans h4 (Nat.mul_le_mul_left _ ?_)⟩
  · clear h1 h2 h3 h4
    unfold deepIri
    rw [blen_append, blen_append]
    have : blen ((List.replicate m ['/', 'a']).flatten) = 2 * m := by
      induction m with
      | zero => rfl
      | succ m ih =>
        rw [List.replicate_succ, List.flatten_cons, blen_append, ih, show blen ['/', 'a'] = 2 from rfl]
        omega
    rw [this, show blen ['a', ':'] = 2 from rfl, show blen ['/', '.'] = 2 from rfl]
    omega
  · unfold normalizeT at h3
    unfold Work.normalize Work.from_iri
    rw [Work.bind_snd]
    rcases hf : NormalizationInput.from_iri (deepIri m) with _ | i
    · rw [hf] at h3; cases h3
    · rw [hf, Option.bind_some] at h3
      obtain ⟨y, hy⟩ := displayT_snd h3
      have hd : (i.withMode mode).display S = some t := by rw [← displayT_fst, h3]; rfl
      simp only
      exact Nat.le_trans (Work.displayPath_ge hy) (Nat.le_trans (Work.display_ge hd) (Nat.le_add_left ..))

/-! Concrete cases: a short IRI, one with ten segments, and a reference. -/

example : Work.normalize .uri .default (chars! "HTTP://u@H.com:/a/./b/../c%7E?q#f") =
    (some (chars! "http://u@h.com/a/c~?q#f"), 118) := by decide +kernel
example : (Work.normalize .uri .default (deepIri 10)).2 = 144 := by decide +kernel
example : Work.resolve .uri .default (chars! "http://h/a/b/c") (chars! "../d") = (some (chars! "http://h/a/d"), 88) := by
  decide +kernel
example : validate_uri .uri (chars! "HTTP://u@H.com:/a/./b/../c%7E?q#f") = some true := by decide +kernel

end Verif
