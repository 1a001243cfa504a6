import Verif.Model.PathWork
import Verif.Props.Resolve

/-!
# C82: the work of removing dot segments

The crate removes dot segments without allocating: it goes through the rest of the path again for every
eight segments that it can write.  The number of steps is at most quadratic in the number of segments
(`(n + 10)² / 16`), and that is attained up to a linear term; without dot segments it is linear.
-/

namespace Verif

open PathToNormalize Rfc

/-! ### The counter does not change the result -/

theorem skippedLenT_fst (p : PathToNormalize) (L : List PathSegment) (acc : Nat) :
    (skippedLenT p L acc).map Prod.fst = skippedLen p L acc := by
  induction L generalizing acc with
  | nil => rfl
  | cons g r ih =>
    unfold skippedLenT skippedLen
    cases g.kind p with
    | none => rfl
    | some k =>
      cases k <;> simp only
      · rw [Option.map_map]; exact ih _
      · rw [Option.map_map]; exact ih _
      · rfl

theorem resolvePrefixesT_fst (S : Spec) (op : NormalizationMode) (auth : Bool) (o : Option Bool) (may : Bool)
    (p : PathToNormalize) :
    (resolvePrefixesT S op auth o may p).map Prod.fst = resolve_and_write_path_prefixes S op auth o may p := by
  unfold resolvePrefixesT resolve_and_write_path_prefixes
  cases (p.is_empty || !may) with
  | true => rfl
  | false =>
    simp only [Bool.false_eq_true, if_false, Option.bind_eq_bind]
    cases segments p with
    | none => rfl
    | some segs =>
      simp only [Option.bind_some]
      rw [← skippedLenT_fst]
      cases skippedLenT p segs 0 with
      | none => rfl
      | some x =>
        simp only [Option.bind_some, Option.map_some]
        cases p.remove_start x.1 with
        | none => rfl
        | some q =>
          simp only [Option.bind_some]
          cases q.is_empty with
          | true => rfl
          | false =>
            simp only [Bool.false_eq_true, if_false]
            cases segments q with
            | none => rfl
            | some segs =>
              simp only [Option.bind_some]
              cases scan q segs ⟨List.replicate QUEUE_SIZE none, false, 0, 0, may⟩ with
              | none => rfl
              | some st =>
                simp only [Option.bind_some]
                cases emitQueue S st.first_has_slash auth op st.queue o with
                | none => rfl
                | some y =>
                  simp only [Option.bind_some]
                  cases q.remove_start st.resolved_end <;> rfl

theorem whileLoopT_fst (S : Spec) (op : NormalizationMode) (auth : Bool) (fuel : Nat) (o : Option Bool)
    (may : Bool) (p : PathToNormalize) :
    (whileLoopT S op auth fuel o may p).map Prod.fst = whileLoop S op auth fuel o may p := by
  induction fuel generalizing o may p with
  | zero => rfl
  | succ fuel ih =>
    unfold whileLoopT whileLoop
    cases (!p.is_empty && may) with
    | false => rfl
    | true =>
      simp only [if_true]
      rw [← resolvePrefixesT_fst]
      cases resolvePrefixesT S op auth o may p with
      | none => rfl
      | some x =>
        obtain ⟨r, k⟩ := x
        cases r with
        | brk out => rfl
        | cont out o may p =>
          simp only [Option.map_some]
          rw [← ih, Option.map_map, Option.map_map]
          rfl

theorem removeIgnorableT_fst (fuel : Nat) (p : PathToNormalize) :
    (removeIgnorableT fuel p).map Prod.fst = remove_ignorable_go fuel p := by
  induction fuel generalizing p with
  | zero => rfl
  | succ fuel ih =>
    unfold removeIgnorableT remove_ignorable_go
    cases iterNext p 0 with
    | none => rfl
    | some x =>
      cases x with
      | none => rfl
      | some seg =>
        simp only
        cases seg.has_leading_slash with
        | true => rfl
        | false =>
          simp only [Bool.false_eq_true, if_false]
          cases seg.kind p with
          | none => rfl
          | some k =>
            cases k
            case normal => rfl
            all_goals
              simp only
              cases p.remove_start (min (blen p.front) (seg.stop + 1)) with
              | none => rfl
              | some q => simp only; rw [← ih, Option.map_map]; rfl

theorem fmtWriteNormalizeT_fst (S : Spec) (op : NormalizationMode) (auth : Bool) (p : PathToNormalize) :
    (fmtWriteNormalizeT S op auth p).map Prod.fst = fmt_write_normalize S op auth p := by
  unfold fmtWriteNormalizeT fmt_write_normalize remove_ignorable_prefix
  cases p.is_empty with
  | true => rfl
  | false =>
    simp only [Bool.false_eq_true, if_false, Option.bind_eq_bind]
    cases (op == .preserve && !auth && !p.starts_with_slash) with
    | true =>
      simp only [if_true]
      cases pct_case_normalized S p.front with
      | none => rfl
      | some f =>
        simp only [Option.bind_some]
        cases p.back with
        | none => rfl
        | some b =>
          simp only
          cases pct_case_normalized S b <;> rfl
    | false =>
      simp only [Bool.false_eq_true, if_false]
      rw [← removeIgnorableT_fst]
      cases removeIgnorableT (p.len + 1) p with
      | none => rfl
      | some x =>
        obtain ⟨q, k⟩ := x
        simp only [Option.bind_some, Option.map_some]
        cases q.is_empty with
        | true => rfl
        | false =>
          simp only [Bool.false_eq_true, if_false]
          rw [← whileLoopT_fst]
          cases whileLoopT S op auth (q.len + 1) none true q with
          | none => rfl
          | some y =>
            obtain ⟨⟨out, r⟩, n⟩ := y
            simp only [Option.bind_some, Option.map_some]
            cases r with
            | none => rfl
            | some z =>
              obtain ⟨o, q⟩ := z
              simp only [Option.map_map]
              cases writeRest S op auth o q <;> rfl

theorem displayT_fst (S : Spec) (i : NormalizationInput) :
    (i.displayT S).map Prod.fst = i.display S := by
  unfold NormalizationInput.displayT NormalizationInput.display
  simp only [Option.bind_eq_bind]
  cases writeOpt ['/', '/'] (fun a => if i.op.case_pct then normalize_authority S a else some a) i.authority with
  | none => rfl
  | some a =>
    simp only [Option.bind_some]
    have e : ∀ X : Option (Str × Nat),
        (X.bind fun x => (writeOpt ['?'] (fun q => if i.op.case_pct then normalize_query S q else some q) i.query).bind
          fun query => (writeOpt ['#'] (fun f => if i.op.case_pct then normalize_fragment S f else some f)
            i.fragment).bind fun fragment =>
              some ((if i.op.case_pct then normalize_scheme i.scheme else i.scheme) ++
                (':' :: (a ++ (x.1 ++ (query ++ fragment)))), x.2)).map Prod.fst =
        ((X.map Prod.fst).bind fun path =>
          (writeOpt ['?'] (fun q => if i.op.case_pct then normalize_query S q else some q) i.query).bind
          fun query => (writeOpt ['#'] (fun f => if i.op.case_pct then normalize_fragment S f else some f)
            i.fragment).bind fun fragment =>
              some ((if i.op.case_pct then normalize_scheme i.scheme else i.scheme) ++
                (':' :: (a ++ (path ++ (query ++ fragment)))))) := by
      intro X
      cases X with
      | none => rfl
      | some x =>
        simp only [Option.bind_some, Option.map_some]
        cases writeOpt ['?'] (fun q => if i.op.case_pct then normalize_query S q else some q) i.query with
        | none => rfl
        | some q =>
          simp only [Option.bind_some]
          cases writeOpt ['#'] (fun q => if i.op.case_pct then normalize_fragment S q else some q) i.fragment <;> rfl
    refine (e _).trans ?_
    unfold NormalizationInput.pathT
    cases i.path with
    | done s =>
      simp only
      cases i.op.case_pct with
      | true => simp only [if_true]; rw [fmtWriteNormalizeT_fst]
      | false => rfl
    | needsProcessing p => simp only; rw [fmtWriteNormalizeT_fst]

theorem displayT_snd {S : Spec} {i : NormalizationInput} {t : Str} {c : Nat} (h : i.displayT S = some (t, c)) :
    ∃ y, i.pathT S = some (y, c) := by
  unfold NormalizationInput.displayT at h
  simp only [Option.bind_eq_bind, Option.bind_eq_some_iff] at h
  obtain ⟨a, _, x, hx, q, _, f, _, e⟩ := h
  cases e
  exact ⟨x.1, hx⟩

/-! ### Counting -/

theorem sq_le (a b : Nat) : 2 * (a * b) ≤ a * a + b * b := by
  rcases Nat.le_total a b with h | h
  · obtain ⟨d, rfl⟩ := Nat.exists_eq_add_of_le h
    simp only [Nat.add_mul, Nat.mul_add]
    have := Nat.mul_comm a d
    omega
  · obtain ⟨d, rfl⟩ := Nat.exists_eq_add_of_le h
    simp only [Nat.add_mul, Nat.mul_add]
    have := Nat.mul_comm b d
    omega


theorem skippedLenT_calls {p : PathToNormalize} (hi : p.Inv) (L1 L2 : List PSeg)
    (h : p.text = pathText (L1 ++ L2)) (hok : OKSegs (L1 ++ L2)) (acc : Nat) :
    ∃ m, skippedLenT p (posList L2 (blen (pathText L1))) acc = some (m, (L2.takeWhile isDots).length + 1) := by
  induction L2 generalizing L1 acc with
  | nil => exact ⟨_, rfl⟩
  | cons g r ih =>
    rw [posList, skippedLenT, kindOf hi h hok]
    have e : L1 ++ g :: r = (L1 ++ [g]) ++ r := by simp
    by_cases hd : isDots g = true
    · have hk : SegmentKind.from_segment g.2 ≠ .normal := by
        intro hk; rw [isDots, hk] at hd; cases hd
      have := fun acc => ih (L1 ++ [g]) (by rw [h, e]) (by rw [← e]; exact hok) acc
      rw [blen_snoc] at this
      obtain ⟨m, hm⟩ := this (blen (pathText L1) + blen (segText g))
      refine ⟨m, ?_⟩
      cases hkk : SegmentKind.from_segment g.2 with
      | normal => exact absurd hkk hk
      | dot => simp only; rw [hm, List.takeWhile_cons, if_pos hd]; simp
      | dotDot => simp only; rw [hm, List.takeWhile_cons, if_pos hd]; simp
    · have hk : SegmentKind.from_segment g.2 = .normal := by
        simpa [isDots] using hd
      rw [hk]
      exact ⟨acc, by simp [hd]⟩

theorem posList_length (L : List PSeg) (k : Nat) : (posList L k).length = L.length := by
  induction L generalizing k with
  | nil => rfl
  | cons g r ih => simp [posList, ih]

/-- Without dot segments the flag, once cleared, stays so. -/
theorem scan_may {p : PathToNormalize} (hi : p.Inv) (X Y : List PSeg)
    (h : p.text = pathText (X ++ Y)) (hok : OKSegs (X ++ Y)) (hn : ∀ g ∈ Y, isDots g = false)
    {st st' : QState} (hm : st.may = false ∨ Y ≠ [] ∧ st.level = 0 ∧ st.queue.length = 8)
    (hs : scan p (posList Y (blen (pathText X))) st = some st') : st'.may = false := by
  induction Y generalizing X st with
  | nil =>
    simp only [posList, scan, Option.some.injEq] at hs
    rcases hm with hm | hm
    · rw [← hs]; exact hm
    · exact absurd rfl hm.1
  | cons g r ih =>
    have hk : SegmentKind.from_segment g.2 = .normal := by
      have := hn g (by simp)
      simpa [isDots] using this
    have e : X ++ g :: r = (X ++ [g]) ++ r := by simp
    rw [posList, scan, kindOf hi h hok, hk] at hs
    simp only at hs
    have hrec := fun st (hm : st.may = false) => @ih (X ++ [g]) (by rw [h, e]) (by rw [← e]; exact hok)
      (fun x hx => hn x (by simp [hx])) st (.inl hm)
    rw [blen_snoc] at hrec
    split at hs
    · rw [kind_eq hi h hok] at hs
      exact hrec _ rfl hs
    · rename_i hl
      rcases hm with hm | hm
      · exact hrec { st with level := st.level + 1 } hm hs
      · rw [hm.2.1, hm.2.2] at hl; omega

/-- The number of calls in a round. -/
theorem resolvePrefixesT_calls {S : Spec} {op : NormalizationMode} {auth : Bool} {o : Option Bool}
    {p : PathToNormalize} (hi : p.Inv) {L : List PSeg} (h : p.text = pathText L) (hok : OKSegs L)
    {r : Resolved} {c : Nat} (hr : resolvePrefixesT S op auth o true p = some (r, c)) :
    (∃ t, r = .brk t ∧ c = L.length + 1 ∧ ∀ g ∈ L, isDots g = true) ∨
    (∃ t o may q, r = .cont t o may q ∧ c = L.length + 2 ∧ (∃ g ∈ L, isDots g = false) ∧
      ((∀ g ∈ L, isDots g = false) → may = false)) := by
  have hsplit : L.takeWhile isDots ++ L.dropWhile isDots = L := List.takeWhile_append_dropWhile
  have hskip := skippedLen_eq hi [] L h hok
  obtain ⟨m, hcalls⟩ := skippedLenT_calls hi [] L h hok 0
  rw [List.nil_append] at hskip
  simp only [pathText_nil, blen] at hskip hcalls
  have hm : m = blen (pathText (L.takeWhile isDots)) := by
    have := skippedLenT_fst p (posList L 0) 0
    rw [hcalls, hskip] at this
    simpa using this
  subst hm
  have hPhead : ∀ g r, L.dropWhile isDots = g :: r → isDots g = false := by
    intro g r hg
    have := List.head?_dropWhile_not isDots L
    rw [hg] at this
    simpa using this
  have hD : ∀ g ∈ L.takeWhile isDots, isDots g = true := fun g hg =>
    (List.all_eq_true.1 (List.all_takeWhile (p := isDots) (l := L))) g hg
  generalize L.takeWhile isDots = D at hsplit hskip hcalls hD
  generalize L.dropWhile isDots = P at hsplit hPhead
  obtain ⟨q, hr1, ht1, hi1⟩ := remove_start_eq hi (a := pathText D) (b := pathText P)
    (by rw [h, ← pathText_append, hsplit])
  have hokP : OKSegs P := by rw [← hsplit] at hok; exact hok.right
  have hlen : L.length = D.length + P.length := by rw [← hsplit]; simp
  unfold resolvePrefixesT at hr
  cases hc : (p.is_empty || !true) with
  | true => rw [if_pos hc] at hr; cases hr
  | false =>
    simp only [hc, segments_eq hi h hok, hcalls, hr1, Bool.false_eq_true, if_false, Option.bind_eq_bind,
      Option.bind_some] at hr
    cases he : q.is_empty with
    | true =>
      simp only [he, if_true, Option.some.injEq, Prod.mk.injEq] at hr
      left
      rw [inv_empty hi1, ht1, hokP.text_ne] at he
      refine ⟨_, hr.1.symm, by rw [← hr.2, hlen, he]; simp, ?_⟩
      rw [← hsplit, he, List.append_nil]; exact hD
    | false =>
      simp only [he, Bool.false_eq_true, if_false, segments_eq hi1 ht1 hokP, Option.bind_some,
        Option.bind_eq_some_iff] at hr
      obtain ⟨st, hst, y, _, q2, _, e⟩ := hr
      simp only [Option.some.injEq, Prod.mk.injEq] at e
      right
      have hP : P ≠ [] := by
        rintro rfl
        have : q.is_empty = true := by rw [inv_empty hi1, ht1]; rfl
        rw [this] at he; cases he
      refine ⟨_, _, _, _, e.1.symm, ?_, ?_, ?_⟩
      · rw [← e.2, hlen, posList_length]; omega
      · cases hP' : P with
        | nil => exact absurd hP' hP
        | cons g r => exact ⟨g, by rw [← hsplit, hP']; simp, hPhead g r hP'⟩
      · intro hn
        exact scan_may hi1 [] P ht1 hokP (fun g hg => hn g (by rw [← hsplit]; simp [hg]))
          (.inr ⟨hP, rfl, rfl⟩) hst

theorem T_some {α β : Type} {x : Option (α × β)} {a : α} (h : x.map Prod.fst = some a) :
    ∃ b, x = some (a, b) := by
  cases x with
  | none => cases h
  | some y => cases h; exact ⟨y.2, rfl⟩

/-- The bound for the `while` loop. -/
theorem whileLoopT_bound {S : Spec} {op : NormalizationMode} {auth : Bool} (fuel : Nat)
    {p : PathToNormalize} {may : Bool} (hi : p.Inv) {L E : List PSeg} (h : p.text = pathText L) (hok : OKSegs L)
    (hn : ∀ g ∈ L, TextOK op g.2) (hE : E = [] ∨ AllSlash L) (hf : L.length < fuel) :
    ∃ x c, whileLoopT S op auth fuel (onlySlash auth E) may p = some (x, c) ∧
      16 * c ≤ (L.length + 9) * (L.length + 9) ∧
      ((∀ g ∈ L, isDots g = true) → c ≤ L.length + 1) ∧
      ((∀ g ∈ L, isDots g = false) → c ≤ L.length + 2) := by
  induction fuel generalizing p may L E with
  | zero => omega
  | succ fuel ih =>
    unfold whileLoopT
    by_cases hL : L = []
    · have he : p.is_empty = true := by rw [inv_empty hi, h, hL]; rfl
      exact ⟨([], some (onlySlash auth E, p)), 0, by simp [he], by omega, by intros; omega, by intros; omega⟩
    · have he : p.is_empty = false := by
        cases he : p.is_empty with
        | false => rfl
        | true =>
          rw [inv_empty hi, h, hok.text_ne] at he
          exact absurd he hL
      cases may with
      | false => exact ⟨([], some (onlySlash auth E, p)), 0, by simp, by omega, by intros; omega, by intros; omega⟩
      | true =>
        simp only [he, Bool.not_false, Bool.and_self, if_true]
        have hpos : 0 < L.length := List.length_pos_iff.2 hL
        rcases resolve_step (S := S) (op := op) (auth := auth) hi h hok hL hn hE with
          ⟨t, h1, _⟩ | ⟨t, Q, R, may', p', h1, _, h3, ⟨N, hN, hNR, h8⟩, h4, h5, h6, _, _⟩
        · rw [← resolvePrefixesT_fst] at h1
          obtain ⟨c, hc⟩ := T_some h1
          rw [hc]
          rcases resolvePrefixesT_calls hi h hok hc with ⟨_, _, e, _⟩ | ⟨_, _, _, _, e, _⟩
          · refine ⟨_, c, rfl, ?_, by intros; omega, by intros; omega⟩
            have : (L.length + 9) * (L.length + 9) = L.length * L.length + 18 * L.length + 81 := by
              simp only [Nat.add_mul, Nat.mul_add]; omega
            omega
          · cases e
        · rw [← resolvePrefixesT_fst] at h1
          obtain ⟨c, hc⟩ := T_some h1
          rw [hc]
          rcases resolvePrefixesT_calls hi h hok hc with ⟨_, e, _⟩ | ⟨_, _, _, _, ec, hcc, hsome, hmayf⟩
          · cases e
          have hal : AllSlash R := by rw [hNR] at hok; exact hok.tail_of_append hN
          have hNpos : 0 < N.length := List.length_pos_iff.2 hN
          have hlen : L.length = N.length + R.length := by rw [hNR]; simp
          obtain ⟨x, c', hw, hb1, hb2, hb3⟩ := ih (p := p') (may := may') (L := R) (E := E ++ Q) h4 h5 hal.ok
            (fun g hg => hn g (by rw [hNR]; simp [hg])) (.inr hal) (by omega)
          have exact_ : (L.length + 9) * (L.length + 9) = L.length * L.length + 18 * L.length + 81 := by
            simp only [Nat.add_mul, Nat.mul_add]; omega
          refine ⟨_, c + c', by simp only [hw]; rfl, ?_, ?_, ?_⟩
          · by_cases hR : ∃ g ∈ R, isDots g = false
            · have h8' := h8 hR
              have e1 : (R.length + 9) * (R.length + 9) ≤ (L.length + 1) * (L.length + 1) :=
                Nat.mul_le_mul (by omega) (by omega)
              have e2 : (L.length + 1) * (L.length + 1) = L.length * L.length + 2 * L.length + 1 := by
                simp only [Nat.add_mul, Nat.mul_add]; omega
              omega
            · have := hb2 fun g hg => by
                cases hd : isDots g with
                | true => rfl
                | false => exact absurd ⟨g, hg, hd⟩ hR
              have e3 := sq_le L.length 7
              omega
          · intro hall
            obtain ⟨g, hg, hd⟩ := hsome
            rw [hall g hg] at hd; cases hd
          · intro hnone
            have hmf := hmayf hnone
            cases ec
            subst hmf
            cases fuel with
            | zero => cases hw
            | succ fuel =>
              unfold whileLoopT at hw
              simp at hw
              omega


theorem removeIgnorableT_bound (fuel : Nat) {p : PathToNormalize} (hi : p.Inv) {L : List PSeg}
    (h : p.text = pathText L) (hok : OKSegs L) {q : PathToNormalize} {c : Nat}
    (hr : removeIgnorableT fuel p = some (q, c)) : c + (stripRel L).length ≤ L.length + 1 := by
  induction fuel generalizing p L c with
  | zero => cases hr
  | succ fuel ih =>
    unfold removeIgnorableT at hr
    match L with
    | [] =>
      have := iterNext_end (p := p) (L := []) h
      simp only [pathText_nil, blen] at this
      rw [this] at hr
      cases hr
      simp [stripRel]
    | g :: r =>
      have hit := iterNext_eq hi (L1 := []) (g := g) (L2 := r) h hok
      have hkd := kindOf hi (L1 := []) (g := g) (L2 := r) h hok
      simp only [pathText_nil, blen, Nat.zero_add] at hit hkd
      simp only [hit, hkd] at hr
      obtain ⟨b, n⟩ := g
      cases b with
      | true =>
        simp only [if_true, Option.some.injEq, Prod.mk.injEq] at hr
        rw [stripRel_true, ← hr.2]; simp; omega
      | false =>
        simp only [Bool.false_eq_true, if_false] at hr
        have hbl : blen (segText (false, n)) = blen n := by simp [segText]
        by_cases hd : isDots (false, n) = true
        · obtain ⟨p', h1, h2, L', h3, h4, h5, h6⟩ := ignorable_step hi h hok hd
          rw [hbl, h1] at hr
          have hr : ∃ x, removeIgnorableT fuel p' = some x ∧ x.1 = q ∧ x.2 + 1 = c := by
            have := isDots_kind.1 hd
            cases hk : SegmentKind.from_segment n with
            | normal => exact absurd hk this
            | dot => rw [hk] at hr; simpa using hr
            | dotDot => rw [hk] at hr; simpa using hr
          obtain ⟨⟨q', c'⟩, hx, e1, e2⟩ := hr
          simp only at e1
          subst e1
          have := ih h2 h3 h4 hx
          rw [h6] at this
          simp only at e2
          simp only [List.length_cons]
          omega
        · have hk : SegmentKind.from_segment n = .normal := by simpa [isDots] using hd
          rw [hk] at hr
          simp only [Option.some.injEq, Prod.mk.injEq] at hr
          rw [stripRel_normal (by simpa using hd), ← hr.2]
          simp; omega

theorem stripRel_all_normal {L : List PSeg} (h : ∀ g ∈ L, isDots g = false) : stripRel L = L := by
  match L with
  | [] => simp [stripRel]
  | (true, n) :: r => exact stripRel_true n r
  | (false, n) :: r => exact stripRel_normal (h (false, n) (by simp))

/-- The bound for a path. -/
theorem fmtT_bound {S : Spec} {op : NormalizationMode} {auth : Bool} {p : PathToNormalize} (hi : p.Inv)
    {L : List PSeg} (h : p.text = pathText L) (hok : OKSegs L) (hn : TextOK op p.text) {t : Str} {c : Nat}
    (hr : fmtWriteNormalizeT S op auth p = some (t, c)) :
    16 * c ≤ (L.length + 10) * (L.length + 10) ∧
    ((∀ g ∈ L, isDots g = false) → c ≤ L.length + 3) := by
  have hexp : (L.length + 10) * (L.length + 10) = L.length * L.length + 20 * L.length + 100 := by
    simp only [Nat.add_mul, Nat.mul_add]; omega
  unfold fmtWriteNormalizeT at hr
  cases he : p.is_empty with
  | true =>
    simp only [he, if_true, Option.some.injEq, Prod.mk.injEq] at hr
    omega
  | false =>
    simp only [he, Bool.false_eq_true, if_false, Option.bind_eq_bind] at hr
    cases hc : (op == .preserve && !auth && !p.starts_with_slash) with
    | true =>
      simp only [hc, if_true, Option.bind_eq_some_iff] at hr
      obtain ⟨f, _, hr⟩ := hr
      have : c = 0 := by
        cases hb : p.back with
        | none => rw [hb] at hr; simp at hr; exact hr.2.symm
        | some b =>
          rw [hb] at hr
          simp only [Option.bind_eq_some_iff] at hr
          obtain ⟨_, _, e⟩ := hr
          cases e; rfl
      omega
    | false =>
      simp only [hc, Bool.false_eq_true, if_false, Option.bind_eq_some_iff] at hr
      obtain ⟨⟨q, k⟩, hq, hr⟩ := hr
      have hk := removeIgnorableT_bound _ hi h hok hq
      obtain ⟨q', h1, h2, h3⟩ := remove_ignorable_prefix_eq hi h hok
      have hqq : q' = q := by
        unfold remove_ignorable_prefix at h1
        rw [← removeIgnorableT_fst, hq] at h1
        simpa using h1.symm
      subst hqq
      have hok' := stripRel_ok hok
      have hn' : ∀ g ∈ stripRel L, TextOK op g.2 := by
        rw [h] at hn
        exact stripRel_names (P := fun s => TextOK op s) (names_ok hok hn)
      have hlen : (stripRel L).length < q'.len + 1 := by
        rw [len_text, h3]; have := segs_length_le hok'; omega
      cases he' : q'.is_empty with
      | true =>
        simp only [he', if_true, Option.some.injEq, Prod.mk.injEq] at hr
        exact ⟨by omega, by intros; omega⟩
      | false =>
        simp only [he', Bool.false_eq_true, if_false, Option.bind_eq_some_iff] at hr
        obtain ⟨⟨⟨out, r⟩, n⟩, hw, hr⟩ := hr
        obtain ⟨x, c', hw', b1, _, b3⟩ := whileLoopT_bound (S := S) (op := op) (auth := auth) (q'.len + 1)
          (may := true) (E := []) h2 h3 hok' hn' (.inl rfl) hlen
        rw [show onlySlash auth [] = none from rfl, hw] at hw'
        have hcn : c' = n := by cases hw'; rfl
        subst hcn
        have hc : c = k + c' := by
          cases r with
          | none => cases hr; rfl
          | some z =>
            simp only [Option.map_eq_some_iff] at hr
            obtain ⟨_, _, e⟩ := hr
            cases e; rfl
        refine ⟨?_, ?_⟩
        · generalize hm : (stripRel L).length = m at *
          obtain ⟨d, hd⟩ := Nat.exists_eq_add_of_le (show m ≤ L.length + 1 by omega)
          have e1 : L.length + 10 = m + 9 + d := by omega
          rw [e1]
          have e2 : (m + 9 + d) * (m + 9 + d) = (m + 9) * (m + 9) + 2 * (m * d) + 18 * d + d * d := by
            simp only [Nat.add_mul, Nat.mul_add]
            have := Nat.mul_comm d m
            omega
          omega
        · intro hall
          rw [stripRel_all_normal hall] at b3 hk
          have := b3 hall
          omega

/-! ### A path for which it is attained -/

/-- `m` segments `a` and a final dot segment. -/
def climb (m : Nat) : List PSeg := List.replicate m (true, ['a']) ++ [(true, ['.'])]

theorem climb_length (m : Nat) : (climb m).length = m + 1 := by simp [climb]

theorem climb_slash (m : Nat) : AllSlash (climb m) := by
  intro g hg
  simp only [climb, List.mem_append, List.mem_replicate, List.mem_singleton] at hg
  rcases hg with ⟨_, rfl⟩ | rfl <;> decide

theorem isDots_a : isDots (true, ['a']) = false := by decide +kernel
theorem kind_dot : SegmentKind.from_segment ['.'] = .dot := by decide +kernel

theorem climb_fin (m : Nat) : (fin (climb m)).length = m + 1 := by
  have h1 : stk (climb m) = List.replicate m (true, ['a']) := by
    rw [climb, stk_append, stkStep]
    simp only [kind_dot]
    exact stk_all_normal fun g hg => by
      rw [(List.mem_replicate.1 hg).2]; exact isDots_a
  have h2 : endDots (climb m) = true := by
    simp [endDots, climb, isDots, kind_dot]
  unfold fin
  rw [h1, h2]
  simp

theorem climb_suffix {m : Nat} {N R : List PSeg} (h : climb m = N ++ R) :
    R = [] ∨ ∃ m', R = climb m' := by
  have e : R = (climb m).drop N.length := by rw [h, List.drop_left]
  rw [climb, List.drop_append, List.drop_replicate] at e
  simp only [List.length_replicate] at e
  by_cases hk : N.length ≤ m
  · right
    refine ⟨m - N.length, ?_⟩
    rw [e, show N.length - m = 0 by omega]; rfl
  · left
    rw [e, show m - N.length = 0 by omega, List.drop_of_length_le (by simp; omega)]
    rfl

theorem climb_text (op : NormalizationMode) (m : Nat) : ∀ g ∈ climb m, TextOK op g.2 := by
  intro g hg _
  simp only [climb, List.mem_append, List.mem_replicate, List.mem_singleton] at hg
  rcases hg with ⟨_, rfl⟩ | rfl
  · exact .chr (by decide) rfl .nil
  · exact .chr (by decide) rfl .nil

theorem whileLoopT_climb {S : Spec} {op : NormalizationMode} {auth : Bool} (fuel m : Nat)
    {p : PathToNormalize} (hi : p.Inv) {E : List PSeg} (h : p.text = pathText (climb m)) {c : Nat}
    {x : Str × Option (Option Bool × PathToNormalize)}
    (hw : whileLoopT S op auth fuel (onlySlash auth E) true p = some (x, c)) : m * m ≤ 16 * c := by
  induction fuel generalizing p m E x c with
  | zero => cases hw
  | succ fuel ih =>
    have hok := (climb_slash m).ok
    have hL : climb m ≠ [] := by simp [climb]
    have he : p.is_empty = false := by
      cases he : p.is_empty with
      | false => rfl
      | true =>
        rw [inv_empty hi, h, hok.text_ne] at he
        exact absurd he hL
    unfold whileLoopT at hw
    simp only [he, Bool.not_false, Bool.and_self, if_true] at hw
    rcases resolve_step (S := S) (op := op) (auth := auth) (E := E) hi h hok hL (climb_text op m)
      (.inr (climb_slash m)) with
      ⟨t, h1, _⟩ | ⟨t, Q, R, may', p', h1, _, h3, ⟨N, hN, hNR, h8⟩, h4, h5, h6, _, hQ⟩
    · rw [← resolvePrefixesT_fst] at h1
      obtain ⟨k, hc⟩ := T_some h1
      rcases resolvePrefixesT_calls hi h hok hc with ⟨_, _, _, e⟩ | ⟨_, _, _, _, e, _⟩
      · cases m with
        | zero => simp
        | succ m =>
          have := e (true, ['a']) (by simp [climb, List.replicate_succ])
          rw [isDots_a] at this; cases this
      · cases e
    · rw [← resolvePrefixesT_fst] at h1
      obtain ⟨k, hc⟩ := T_some h1
      rw [hc] at hw
      rcases resolvePrefixesT_calls hi h hok hc with ⟨_, e, _⟩ | ⟨_, _, _, _, ec, hcc, _, _⟩
      · cases e
      simp only [Option.map_eq_some_iff] at hw
      obtain ⟨⟨y, c'⟩, hw, e⟩ := hw
      have hcsum : c = k + c' := by cases e; rfl
      have hfl := congrArg List.length h3
      rw [climb_fin, List.length_append] at hfl
      rw [climb_length] at hcc
      rcases climb_suffix hNR with hR | ⟨m', hR⟩
      · rw [hR] at hfl
        have : (fin []).length = 0 := rfl
        have hm : m ≤ 16 := by omega
        have := Nat.mul_le_mul_right m hm
        omega
      · rw [hR, climb_fin] at hfl
        have hmay : may' = true := by
          cases may' with
          | true => rfl
          | false =>
            have := h6 rfl (true, ['.']) (by rw [hR]; simp [climb])
            simp [isDots, kind_dot] at this
        subst hmay
        have := ih m' h4 (E := E ++ Q) (by rw [h5, hR]) hw
        have hlt : m' < m := by
          have h1 := congrArg List.length hNR
          rw [hR, List.length_append, climb_length, climb_length] at h1
          have := List.length_pos_iff.2 hN
          omega
        have e1 : m * m ≤ (m' + 8) * (m' + 8) := Nat.mul_le_mul (by omega) (by omega)
        have e2 : (m' + 8) * (m' + 8) = m' * m' + 16 * m' + 64 := by
          simp only [Nat.add_mul, Nat.mul_add]; omega
        omega

theorem fmtT_climb {S : Spec} {op : NormalizationMode} {auth : Bool} (m : Nat) {p : PathToNormalize}
    (hi : p.Inv) (h : p.text = pathText (climb m)) {t : Str} {c : Nat}
    (hr : fmtWriteNormalizeT S op auth p = some (t, c)) : m * m ≤ 16 * c := by
  have hok := (climb_slash m).ok
  have hL : climb m ≠ [] := by simp [climb]
  have he : p.is_empty = false := by
    cases he : p.is_empty with
    | false => rfl
    | true =>
      rw [inv_empty hi, h, hok.text_ne] at he
      exact absurd he hL
  have hstrip : stripRel (climb m) = climb m := by
    cases m with
    | zero => exact stripRel_true _ _
    | succ m => exact stripRel_true _ _
  have hsl : p.starts_with_slash = true := by
    have : ∃ r, p.text = '/' :: r := by
      rw [h]
      cases m with
      | zero => exact ⟨_, rfl⟩
      | succ m => exact ⟨_, rfl⟩
    obtain ⟨r, hr⟩ := this
    unfold starts_with_slash
    rw [starts_with_iff]
    unfold PathToNormalize.text at hr
    cases hfr : p.front with
    | nil => simp [is_empty, hfr] at he
    | cons c f =>
      rw [hfr] at hr
      simp at hr
      exact ⟨f, by rw [hr.1]; rfl⟩
  unfold fmtWriteNormalizeT at hr
  simp only [he, hsl, Bool.not_true, Bool.and_false, Bool.false_eq_true, if_false, Option.bind_eq_bind,
    Option.bind_eq_some_iff] at hr
  obtain ⟨⟨q, k⟩, hq, hr⟩ := hr
  obtain ⟨q', h1, h2, h3⟩ := remove_ignorable_prefix_eq hi h hok
  have hqq : q' = q := by
    unfold remove_ignorable_prefix at h1
    rw [← removeIgnorableT_fst, hq] at h1
    simpa using h1.symm
  subst hqq
  rw [hstrip] at h3
  have he' : q'.is_empty = false := by
    cases he : q'.is_empty with
    | false => rfl
    | true =>
      rw [inv_empty h2, h3, hok.text_ne] at he
      exact absurd he hL
  simp only [he', Bool.false_eq_true, if_false, Option.bind_eq_some_iff] at hr
  obtain ⟨⟨⟨out, r⟩, n⟩, hw, hr⟩ := hr
  have := whileLoopT_climb (E := []) _ m h2 h3 hw
  have hc : c = k + n := by
    cases r with
    | none => cases hr; rfl
    | some z =>
      simp only [Option.map_eq_some_iff] at hr
      obtain ⟨_, _, e⟩ := hr
      cases e; rfl
  omega

/-! ### Segments and slashes -/

theorem splitSlash_count (s : Str) : (splitSlash s).length = s.count '/' + 1 := by
  induction s with
  | nil => rfl
  | cons c r ih =>
    by_cases hc : c = '/'
    · subst hc
      have : splitSlash ('/' :: r) = [] :: splitSlash r := by simp [splitSlash]
      rw [this, List.length_cons, ih, List.count_cons_self]
    · obtain ⟨a, as, h1, h2⟩ := splitSlash_cons hc r
      rw [h1] at ih
      rw [h2, List.count_cons_of_ne (by exact hc)]
      simpa using ih

theorem pathSegs_length (s : Str) : (pathSegs s).length ≤ s.count '/' + 1 := by
  match s with
  | [] => simp [pathSegs]
  | c :: r =>
    unfold pathSegs
    by_cases hc : c = '/'
    · subst hc
      simp only [if_true, List.length_map, splitSlash_count, List.count_cons_self]
      omega
    · simp only [hc, if_false]
      have h := splitSlash_count (c :: r)
      obtain ⟨a, as, h1, h2⟩ := splitSlash_cons hc r
      rw [h2] at h ⊢
      simp only [List.length_cons, List.length_map] at h ⊢
      omega

theorem pathSegs_names {s : Str} {g : PSeg} (h : g ∈ pathSegs s) : g.2 ∈ splitSlash s := by
  match s with
  | [] => simp [pathSegs] at h
  | c :: r =>
    unfold pathSegs at h
    by_cases hc : c = '/'
    · subst hc
      simp only [if_true, List.mem_map] at h
      obtain ⟨n, hn, rfl⟩ := h
      have : splitSlash ('/' :: r) = [] :: splitSlash r := by simp [splitSlash]
      rw [this]
      exact List.mem_cons_of_mem _ hn
    · simp only [hc, if_false] at h
      obtain ⟨a, as, h1, h2⟩ := splitSlash_cons hc r
      rw [h2] at h ⊢
      simp only [List.mem_cons, List.mem_map] at h
      rcases h with rfl | ⟨n, hn, rfl⟩
      · exact List.mem_cons_self
      · exact List.mem_cons_of_mem _ hn

theorem recompose_count (p : Parts) : p.path.count '/' ≤ p.recompose.count '/' := by
  unfold Parts.recompose
  simp only [List.count_append]
  omega

theorem recompose_count_auth {p : Parts} (h : p.authority.isSome = true) :
    p.path.count '/' + 2 ≤ p.recompose.count '/' := by
  obtain ⟨a, ha⟩ := Option.isSome_iff_exists.1 h
  unfold Parts.recompose
  rw [ha]
  have : optSuf ['/', '/'] (some a) = '/' :: '/' :: a := rfl
  rw [this]
  simp only [List.count_append, List.count_cons_self]
  omega

/-- A path's counted work, from its text. -/
theorem pathT_bound {S : Spec} {x : Str} {op : NormalizationMode} {p : Parts} {np : NPath}
    (hv : p.Valid S)
    (hnp : np = .done p.path ∨ ∃ q : PathToNormalize, np = .needsProcessing q ∧ q.Inv ∧ q.text = p.path)
    {y : Str} {c : Nat}
    (hr : NormalizationInput.pathT S ⟨x, p.authority, np, p.query, p.fragment, op⟩ = some (y, c)) :
    16 * c ≤ (p.path.count '/' + 11) * (p.path.count '/' + 11) ∧
    ((∀ n ∈ splitSlash p.path, NotDot n) → c ≤ p.path.count '/' + 4) := by
  have key : c = 0 ∨ ∃ q : PathToNormalize, q.Inv ∧ q.text = p.path ∧
      fmtWriteNormalizeT S op p.authority.isSome q = some (y, c) := by
    unfold NormalizationInput.pathT at hr
    rcases hnp with rfl | ⟨q, rfl, h1, h2⟩
    · simp only at hr
      by_cases ho : op.case_pct = true
      · rw [if_pos ho] at hr
        have := from_single_path_inv p.path
        exact .inr ⟨_, this.1, this.2, hr⟩
      · rw [if_neg ho] at hr
        cases hr
        exact .inl rfl
    · exact .inr ⟨q, h1, h2, hr⟩
  rcases key with rfl | ⟨q, h1, h2, h3⟩
  · omega
  · obtain ⟨k1, k2⟩ := pathSegs_spec p.path
    have hb := fmtT_bound h1 (L := pathSegs p.path) (by rw [h2, k2]) k1 (by rw [h2]; exact hv.textOK) h3
    have hl := pathSegs_length p.path
    refine ⟨?_, ?_⟩
    · have := Nat.mul_le_mul (show (pathSegs p.path).length + 10 ≤ p.path.count '/' + 11 by omega)
        (show (pathSegs p.path).length + 10 ≤ p.path.count '/' + 11 by omega)
      omega
    · intro h
      have := hb.2 fun g hg => (notDot_iff g).2 (h _ (pathSegs_names hg))
      omega

theorem merge_count (b r : Parts) :
    (mergeReference b r).path.count '/' ≤ b.recompose.count '/' + r.recompose.count '/' := by
  have h1 := recompose_count b
  have h2 := recompose_count r
  unfold mergeReference
  split
  · omega
  · split
    · simp only; omega
    · split
      · simp only; omega
      · simp only
        split
        · omega
        · unfold mergePaths
          split
          · rename_i h
            simp only [Bool.and_eq_true] at h
            have := recompose_count_auth h.1
            rw [List.count_cons_self]
            omega
          · rw [List.count_append]
            have : (b.path.reverse.dropWhile (· != '/')).reverse.count '/' ≤ b.path.count '/' := by
              rw [List.count_reverse, ← List.count_reverse (l := b.path)]
              exact (List.dropWhile_suffix _).sublist.count_le _
            omega

/-! ### The theorems -/

/-- **C82**: the counted functions compute what the crate's functions compute, for every input: the
counter only counts. -/
theorem C82_same (S : Spec) (mode : NormalizationMode) (s base ref : Str) :
    (normalizeT S .default s).map Prod.fst = normalize S s ∧
    (normalizeT S .preserve s).map Prod.fst = normalize_but_preserve_authorityless_relative_path S s ∧
    (resolveT S mode base ref).map Prod.fst = resolve S mode base ref := by
  refine ⟨?_, ?_, ?_⟩
  · unfold normalizeT normalize
    cases NormalizationInput.from_iri s with
    | none => rfl
    | some i => exact displayT_fst S _
  · unfold normalizeT normalize_but_preserve_authorityless_relative_path
    cases NormalizationInput.from_iri s with
    | none => rfl
    | some i => exact displayT_fst S _
  · unfold resolveT resolve
    cases NormalizationInput.with_resolution_params base ref with
    | none => rfl
    | some i => exact displayT_fst S _

/-- Normalization in a mode, as parts. -/
theorem normalizeT_parts {S : Spec} {p : Parts} (hp : p.Valid S) (hs : p.scheme ≠ none)
    (mode : NormalizationMode) : ∃ x t c, p.scheme = some x ∧ normalizeT S mode p.recompose = some (t, c) ∧
      ∃ y, NormalizationInput.pathT S ⟨x, p.authority, .needsProcessing (from_single_path p.path), p.query,
        p.fragment, mode⟩ = some (y, c) := by
  obtain ⟨x, hx⟩ := Option.ne_none_iff_exists'.1 hs
  have hinv := from_single_path_inv p.path
  have hd := display_needs (op := mode) hp hx hinv.1 hinv.2
  rw [← displayT_fst] at hd
  obtain ⟨c, hc⟩ := T_some hd
  refine ⟨x, (normParts S mode p).recompose, c, hx, ?_, displayT_snd hc⟩
  unfold normalizeT
  rw [from_iri_eq hp hx, Option.bind_some]
  exact hc

/-- **C82**: normalizing a valid IRI takes a number of steps that is at most quadratic in the number of
slashes: 16 times the number of steps is at most the square of that number and 11. -/
theorem C82_normalize (S : Spec) (mode : NormalizationMode) (s : Str) (h : validate_uri S s = some true) :
    ∃ t c, normalizeT S mode s = some (t, c) ∧
      16 * c ≤ (s.count '/' + 11) * (s.count '/' + 11) := by
  obtain ⟨p, hp, hs, rfl⟩ := iri_parts' h
  obtain ⟨x, t, c, hx, hn, y, hy⟩ := normalizeT_parts hp hs mode
  refine ⟨t, c, hn, ?_⟩
  have hinv := from_single_path_inv p.path
  have := (pathT_bound hp (.inr ⟨_, rfl, hinv.1, hinv.2⟩) hy).1
  have hc := recompose_count p
  have := Nat.mul_le_mul (show p.path.count '/' + 11 ≤ p.recompose.count '/' + 11 by omega)
    (show p.path.count '/' + 11 ≤ p.recompose.count '/' + 11 by omega)
  omega

/-- **C82**: resolving a valid reference against a valid base, in every normalization mode, takes at most
quadratically many steps in the number of slashes of both. -/
theorem C82_resolve (S : Spec) (mode : NormalizationMode) (base ref : Str)
    (hb : validate_uri S base = some true) (hr : validate_uri_reference S ref = some true) :
    ∃ t c, resolveT S mode base ref = some (t, c) ∧
      16 * c ≤ (base.count '/' + ref.count '/' + 11) * (base.count '/' + ref.count '/' + 11) := by
  obtain ⟨b, hbv, hbs, rfl⟩ := iri_parts' hb
  obtain ⟨r, hrv, rfl⟩ := reference_parts hr
  obtain ⟨q, _, _, hq, _⟩ := resolve_parts hbv hbs hrv mode
  rw [← (C82_same S mode [] _ _).2.2] at hq
  obtain ⟨c, hc⟩ := T_some hq
  refine ⟨_, c, hc, ?_⟩
  obtain ⟨x, np, hx, hi, h1, h2⟩ := resolution_input hbv hbs hrv
  obtain ⟨hm, hms⟩ := merge_valid hbv hbs hrv
  unfold resolveT at hc
  rw [hi, Option.bind_some] at hc
  obtain ⟨y, hy⟩ := displayT_snd (i := ⟨x, (mergeReference b r).authority, np, (mergeReference b r).query,
    (mergeReference b r).fragment, mode⟩) hc
  have hnp : np = .done (mergeReference b r).path ∨
      ∃ q : PathToNormalize, np = .needsProcessing q ∧ q.Inv ∧ q.text = (mergeReference b r).path := by
    cases hsp : samePath r with
    | true => exact .inl (h1 hsp)
    | false => exact .inr (h2 hsp)
  have hb1 := (pathT_bound hm hnp hy).1
  have hcnt := merge_count b r
  clear hi hc hy h1 h2 hnp
  revert hb1 hcnt
  generalize (mergeReference b r).path.count '/' = n1
  generalize b.recompose.count '/' + r.recompose.count '/' = n2
  intro hb1 hcnt
  have := Nat.mul_le_mul (show n1 + 11 ≤ n2 + 11 by omega) (show n1 + 11 ≤ n2 + 11 by omega)
  omega

/-- **C82**: an IRI whose path has no dot segment, in any spelling, is normalized in linearly many steps.
(`p` are the components of the IRI.) -/
theorem C82_linear (S : Spec) (mode : NormalizationMode) (p : Parts) (hp : p.Valid S) (hs : p.scheme ≠ none)
    (hd : ∀ n ∈ splitSlash p.path, NotDot n) :
    ∃ t c, normalizeT S mode p.recompose = some (t, c) ∧ c ≤ p.path.count '/' + 4 := by
  obtain ⟨x, t, c, hx, hn, y, hy⟩ := normalizeT_parts hp hs mode
  have hinv := from_single_path_inv p.path
  exact ⟨t, c, hn, (pathT_bound hp (.inr ⟨_, rfl, hinv.1, hinv.2⟩) hy).2 hd⟩

/-- The IRI `a:/a/a…/a/.` with `m` segments `a`. -/
def deepIri (m : Nat) : Str := ['a', ':'] ++ (List.replicate m ['/', 'a']).flatten ++ ['/', '.']

theorem deepIri_path (m : Nat) : (List.replicate m ['/', 'a']).flatten ++ ['/', '.'] = pathText (climb m) := by
  rw [climb, pathText_append]
  congr 1
  induction m with
  | zero => rfl
  | succ m ih => rw [List.replicate_succ, List.replicate_succ, List.flatten_cons, pathText_cons, ih]; rfl

theorem climb_PC (S : Spec) (m : Nat) : PC (pcharSlashC S) (pathText (climb m)) := by
  rw [← deepIri_path]
  have h1 : PC (pcharSlashC S) ['/', 'a'] :=
    .chr (by decide) (by cases S <;> decide +kernel) (.chr (by decide) (by cases S <;> decide +kernel) .nil)
  have h2 : PC (pcharSlashC S) ['/', '.'] :=
    .chr (by decide) (by cases S <;> decide +kernel) (.chr (by decide) (by cases S <;> decide +kernel) .nil)
  refine PC.append ?_ h2
  induction m with
  | zero => exact .nil
  | succ m ih => rw [List.replicate_succ, List.flatten_cons]; exact h1.append ih

/-- The components of `deepIri`. -/
theorem deepIri_valid (S : Spec) (m : Nat) :
    Parts.Valid S ⟨some ['a'], none, pathText (climb m), none, none⟩ := by
  refine ⟨?_, by simp, path_iff.2 (climb_PC S m), by simp, by simp, by simp, ?_, by simp⟩
  · intro x hx
    cases hx
    exact (scheme_iff _).2 (by decide +kernel)
  · intro _ r hr
    cases m with
    | zero => revert hr; simp [climb, pathText, segText]
    | succ m => revert hr; simp [climb, pathText, segText, List.replicate_succ]

theorem deepIri_eq (m : Nat) :
    deepIri m = Parts.recompose ⟨some ['a'], none, pathText (climb m), none, none⟩ := by
  unfold deepIri Parts.recompose
  rw [List.append_assoc, deepIri_path]
  simp [optPre, optSuf]

/-- **C82**: the quadratic bound is attained up to lower terms: for every `m` there is an IRI with `m + 1`
segments and as many slashes for which at least `m² / 16` steps are taken. -/
theorem C82_attained (S : Spec) (mode : NormalizationMode) (m : Nat) :
    validate_uri S (deepIri m) = some true ∧ (deepIri m).count '/' = m + 1 ∧
    ∃ t c, normalizeT S mode (deepIri m) = some (t, c) ∧ m * m ≤ 16 * c := by
  have hv := deepIri_valid S m
  refine ⟨?_, ?_, ?_⟩
  · rw [deepIri_eq]; exact validate_uri_of_parts hv (by simp)
  · unfold deepIri
    rw [List.count_append, List.count_append]
    have : ((List.replicate m ['/', 'a']).flatten).count '/' = m := by
      clear hv
      induction m with
      | zero => rfl
      | succ m ih =>
        rw [List.replicate_succ, List.flatten_cons, List.count_append, ih]
        simp; omega
    rw [this]
    simp
  · rw [deepIri_eq]
    obtain ⟨x, t, c, hx, hn, y, hy⟩ := normalizeT_parts hv (by simp) mode
    refine ⟨t, c, hn, ?_⟩
    have hinv := from_single_path_inv (pathText (climb m))
    exact fmtT_climb m hinv.1 hinv.2 hy

/-- Not linear: whatever the factor and the offset, some IRI takes more steps than that many per slash. -/
theorem C82_not_linear (S : Spec) (mode : NormalizationMode) (k d : Nat) :
    ∃ s t c, validate_uri S s = some true ∧ normalizeT S mode s = some (t, c) ∧
      k * s.count '/' + d < c := by
  obtain ⟨h1, h2, t, c, h3, h4⟩ := C82_attained S mode (16 * k + 16 * d + 17)
  refine ⟨_, t, c, h1, h3, ?_⟩
  rw [h2]
  have e1 : (16 * k + 16 * d + 17) * (16 * k + 16 * d + 17) =
      16 * (k * (16 * k + 16 * d + 17)) + (16 * d + 17) * (16 * k + 16 * d + 17) := by
    rw [show 16 * k + 16 * d + 17 = 16 * k + (16 * d + 17) by omega, Nat.add_mul, Nat.mul_assoc]
  have e2 : (16 * d + 17) * (16 * k + 16 * d + 17) ≥ (16 * k + 16 * d + 17) :=
    Nat.le_mul_of_pos_left _ (by omega)
  have e3 : k * (16 * k + 16 * d + 17 + 1) = k * (16 * k + 16 * d + 17) + k := by
    rw [Nat.mul_add, Nat.mul_one]
  omega

/-! Concrete cases.  Ten segments and a dot segment at the end: 11 segments are read for the first eight
written, the rest in the second round. -/

example : normalizeT .uri .default (deepIri 10) = some (chars! "a:/a/a/a/a/a/a/a/a/a/a/", 21) := by
  decide +kernel
example : normalizeT .uri .default (chars! "http://h/a/b/c") = some (chars! "http://h/a/b/c", 6) := by
  decide +kernel
example : resolveT .uri .default (chars! "http://h/a/b/c") (chars! "../d") = some (chars! "http://h/a/d", 7) := by
  decide +kernel

end Verif
