import Verif.Lemmas.DisplayWriterPath
import Verif.Lemmas.Resolve
import Verif.Lemmas.Build
import Verif.Lemmas.Format
import Verif.Spec.DisplayWriter

/-! # The remaining `Display` implementations at the level of writer calls -/

namespace Verif.Out

open Verif.Tpl (Writer)
open PathToNormalize

theorem WritesU.matchOpt {α : Type} {o : Option α} {m : ∀ τ : Type, Writer τ → WM τ Unit}
    {k : α → ∀ τ : Type, Writer τ → WM τ Unit} {x : Option Str} {y : α → Option Str}
    (hm : WritesU m x) (hk : ∀ a, o = some a → WritesU (k a) (y a)) :
    WritesU (fun τ w => match o with | none => m τ w | some a => k a τ w)
      (match o with | none => x | some a => y a) := by
  cases o with
  | none => exact hm
  | some a => exact hk a rfl

/-- A choice that is followed by further output. -/
theorem WritesU.iteThen {c : Prop} [Decidable c] {m n r : ∀ τ : Type, Writer τ → WM τ Unit} {x y z : Option Str}
    (hm : c → WritesU m x) (hn : ¬ c → WritesU n y) (hr : WritesU r z) :
    WritesU (fun τ w => if c then (m τ w >>= fun _ => r τ w) else (n τ w >>= fun _ => r τ w))
      ((if c then x else y).bind fun s => z.map fun t => s ++ t) := by
  by_cases hc : c
  · simp only [hc, if_true]; exact WritesU.then (hm hc) hr rfl
  · simp only [hc, if_false]; exact WritesU.then (hn hc) hr rfl

theorem optW_writes {f : Str → ∀ τ : Type, Writer τ → WM τ Unit} {g : Str → Option Str} (pre : Str)
    (o : Option Str) (h : ∀ s, o = some s → WritesU (f s) (g s)) :
    WritesU (fun τ w => optW w pre (fun s => f s τ w) o) (writeOpt pre g o) := by
  cases o with
  | none => exact WritesU.done rfl
  | some s =>
    refine WritesU.then (Writes.put pre) (h s rfl) ?_
    rfl

theorem normalizeSchemeW_writes (s : Str) : WritesU (fun _ w => normalizeSchemeW w s) (some (normalize_scheme s)) :=
  Writes.putAll (by rw [flatten_map_single]; rfl)

variable {F : StdPieces} (hF : F.Ok)
include hF

theorem normalizeHostPortW_writes (dbg : Bool) (S : Spec) (s : Str) :
    WritesU (fun _ w => normalizeHostPortW F dbg S w s) (normalize_host_port S s) := by
  unfold normalizeHostPortW normalize_host_port
  refine WritesU.lift ?_ rfl
  intro b _
  exact WritesU.ite (fun _ => asciiHostW_writes hF _) (fun _ => pctCaseW_writes hF dbg S _) rfl

theorem normalizeAuthorityW_writes (dbg : Bool) (S : Spec) (s : Str) :
    WritesU (fun _ w => normalizeAuthorityW F dbg S w s) (normalize_authority S s) := by
  unfold normalizeAuthorityW normalize_authority
  cases rfind_split_hole s '@' with
  | none => exact normalizeHostPortW_writes hF dbg S s
  | some v =>
    obtain ⟨u, h⟩ := v
    refine WritesU.then (pctCaseW_writes hF dbg S u)
      (WritesU.then (Writes.put _) (normalizeHostPortW_writes hF dbg S h) rfl) ?_
    simp only [Option.bind_eq_bind, Option.bind_some]
    cases pct_case_normalized S u with
    | none => rfl
    | some u => cases normalize_host_port S h <;> rfl

/-- The buffers of the path are as the code keeps them. -/
def InputInv (i : NormalizationInput) : Prop := ∀ p, i.path = .needsProcessing p → p.Inv

theorem normalizedW_writes (dbg : Bool) (S : Spec) {i : NormalizationInput} (hi : InputInv i) :
    WritesU (fun _ w => normalizedW F dbg S i w) (i.display S) := by
  unfold normalizedW
  have hq : WritesU (fun _ w => (do
      optW w ['?'] (fun q => if i.op.case_pct then pctCaseW F dbg S w q else put w q) i.query
      optW w ['#'] (fun q => if i.op.case_pct then pctCaseW F dbg S w q else put w q) i.fragment))
      ((writeOpt ['?'] (fun q => if i.op.case_pct then normalize_query S q else some q) i.query).bind fun q =>
        (writeOpt ['#'] (fun f => if i.op.case_pct then normalize_fragment S f else some f) i.fragment).map
          fun f => q ++ f) := by
    refine WritesU.then (optW_writes _ _ fun s _ => ?_) (optW_writes _ _ fun s _ => ?_) rfl
    · exact WritesU.ite (fun _ => pctCaseW_writes hF dbg S _) (fun _ => Writes.put _) rfl
    · exact WritesU.ite (fun _ => pctCaseW_writes hF dbg S _) (fun _ => Writes.put _) rfl
  have hp : WritesU (fun _ w => (do
      match i.path with
      | .done s =>
        if i.op.case_pct then
          fmtWriteNormalizeW F dbg S w i.op i.authority.isSome (PathToNormalize.from_single_path s)
        else put w s
      | .needsProcessing p => fmtWriteNormalizeW F dbg S w i.op i.authority.isSome p
      optW w ['?'] (fun q => if i.op.case_pct then pctCaseW F dbg S w q else put w q) i.query
      optW w ['#'] (fun q => if i.op.case_pct then pctCaseW F dbg S w q else put w q) i.fragment))
      ((match i.path with
        | .done s =>
          if i.op.case_pct then (from_single_path s).fmt_write_normalize S i.op i.authority.isSome
          else some s
        | .needsProcessing p => p.fmt_write_normalize S i.op i.authority.isSome).bind fun p => 
        ((writeOpt ['?'] (fun q => if i.op.case_pct then normalize_query S q else some q) i.query).bind fun q =>
        (writeOpt ['#'] (fun f => if i.op.case_pct then normalize_fragment S f else some f) i.fragment).map
          fun f => q ++ f).map fun q => p ++ q) := by
    cases hpath : i.path with
    | done s =>
      exact WritesU.iteThen (fun _ => fmtWriteNormalizeW_writes hF dbg S i.op _ (from_single_path_inv s).1)
        (fun _ => Writes.put s) hq
    | needsProcessing p =>
      exact WritesU.then (fmtWriteNormalizeW_writes hF dbg S i.op _ (hi p hpath)) hq rfl
  have ha : WritesU (fun τ w => (optW w ['/', '/']
      (fun a => if i.op.case_pct then normalizeAuthorityW F dbg S w a else put w a) i.authority : WM τ Unit))
      (writeOpt ['/', '/'] (fun a => if i.op.case_pct then normalize_authority S a else some a) i.authority) := by
    refine optW_writes _ _ fun s _ => ?_
    exact WritesU.ite (fun _ => normalizeAuthorityW_writes hF dbg S _) (fun _ => Writes.put _) rfl
  refine WritesU.cast (WritesU.iteThen (fun _ => normalizeSchemeW_writes i.scheme) (fun _ => Writes.put i.scheme)
    (WritesU.then (Writes.put _) (WritesU.then ha hp rfl) rfl)) ?_
  unfold NormalizationInput.display
  simp only [Option.bind_eq_bind, Option.bind_some]
  generalize writeOpt ['/', '/'] (fun a => if i.op.case_pct = true then normalize_authority S a else some a)
    i.authority = A
  generalize writeOpt ['?'] (fun q => if i.op.case_pct = true then normalize_query S q else some q) i.query = Q
  generalize writeOpt ['#'] (fun f => if i.op.case_pct = true then normalize_fragment S f else some f)
    i.fragment = G
  have e : (if i.op.case_pct = true then some (normalize_scheme i.scheme) else some i.scheme) =
      some (if i.op.case_pct = true then normalize_scheme i.scheme else i.scheme) := by split <;> rfl
  rw [e]
  generalize (if i.op.case_pct = true then normalize_scheme i.scheme else i.scheme) = s
  cases i.path with
  | done t =>
    dsimp only
    by_cases hc : i.op.case_pct = true
    · simp only [hc, if_true]
      generalize (from_single_path t).fmt_write_normalize S i.op i.authority.isSome = P
      cases A <;> cases P <;> cases Q <;> cases G <;> rfl
    · simp only [hc, Bool.false_eq_true, if_false]
      cases A <;> cases Q <;> cases G <;> rfl
  | needsProcessing p =>
    dsimp only
    generalize p.fmt_write_normalize S i.op i.authority.isSome = P
    cases A <;> cases P <;> cases Q <;> cases G <;> rfl

/-! ### The builder -/

theorem pctIfW_writes (dbg : Bool) (S : Spec) (n : Bool) (s : Str) :
    WritesU (fun _ w => pctIfW F dbg S n w s) (pctIf S n s) :=
  WritesU.ite (fun _ => pctCaseW_writes hF dbg S s) (fun _ => Writes.put s) rfl

theorem userinfoW_writes (dbg : Bool) (S : Spec) (n : Bool) (u : UserinfoRepr) :
    WritesU (fun _ w => userinfoW F dbg S n w u) (u.write S n) := by
  rcases u with _ | u | ⟨u, _ | p⟩
  · exact WritesU.done rfl
  · refine WritesU.then (pctIfW_writes hF dbg S n u) (Writes.put _) ?_
    simp only [UserinfoRepr.write]
    cases pctIf S n u <;> rfl
  · refine WritesU.then (pctIfW_writes hF dbg S n u) (Writes.put _) ?_
    simp only [UserinfoRepr.write]
    cases pctIf S n u <;> rfl
  · refine WritesU.then (pctIfW_writes hF dbg S n u) (WritesU.then (Writes.put _)
      (WritesU.then (pctIfW_writes hF dbg S n p) (Writes.put _) rfl) rfl) ?_
    simp only [UserinfoRepr.write]
    cases pctIf S n u <;> cases pctIf S n p <;> rfl

theorem hostW_writes (dbg : Bool) (S : Spec) (n : Bool) (h : HostRepr) :
    WritesU (fun _ w => hostW F dbg S n w h) (h.write S n) := by
  cases h with
  | string h => exact WritesU.ite (fun _ => normalizeHostPortW_writes hF dbg S h) (fun _ => Writes.put h) rfl
  | ipv4 a b c d => exact Writes.putAll (by rw [hF.v4]; rfl)
  | ipv6 a => exact Writes.putAll (by rw [hF.v6]; rfl)

theorem portW_writes (n : Bool) (p : PortRepr) :
    WritesU (fun _ w => portW F n w p) (some (p.write n)) := by
  cases p with
  | empty => exact WritesU.done rfl
  | integer k => exact Writes.putAll (by rw [hF.colonInt]; rfl)
  | string s =>
    refine WritesU.ite (x := some (':' :: s)) (y := some []) (fun _ => Writes.putAll (by rw [hF.colonStr]))
      (fun _ => WritesU.done rfl) ?_
    simp only [PortRepr.write]
    cases (s.isEmpty && n) <;> rfl

theorem authorityW_writes (dbg : Bool) (S : Spec) (n : Bool) (a : AuthorityBuilder) :
    WritesU (fun _ w => authorityW F dbg S n w a) (a.write S n) := by
  refine WritesU.then (userinfoW_writes hF dbg S n _)
    (WritesU.then (hostW_writes hF dbg S n _) (portW_writes hF n _) rfl) ?_
  unfold AuthorityBuilder.write
  cases a.userinfo.write S n <;> cases a.host.write S n <;> rfl

theorem builtW_writes (dbg : Bool) (S : Spec) (b : Built) :
    WritesU (fun _ w => builtW F dbg S b w) (b.display S) := by
  unfold builtW Built.display builderW
  generalize b.builder = b, b.path_is_absolute = abs
  have hq : WritesU (fun _ w => (do
      optW w ['?'] (fun q => if b.normalize then pctCaseW F dbg S w q else put w q) b.query
      optW w ['#'] (fun q => if b.normalize then pctCaseW F dbg S w q else put w q) b.fragment))
      ((writeOpt ['?'] (fun q => if b.normalize then normalize_query S q else some q) b.query).bind fun q =>
        (writeOpt ['#'] (fun f => if b.normalize then normalize_fragment S f else some f) b.fragment).map
          fun f => q ++ f) := by
    refine WritesU.then (optW_writes _ _ fun s _ => ?_) (optW_writes _ _ fun s _ => ?_) rfl
    · exact WritesU.ite (fun _ => pctCaseW_writes hF dbg S _) (fun _ => Writes.put _) rfl
    · exact WritesU.ite (fun _ => pctCaseW_writes hF dbg S _) (fun _ => Writes.put _) rfl
  have e : b.write S abs = (match b.scheme with
      | none => some []
      | some s => some ((if b.normalize then normalize_scheme s else s) ++ [':'])).bind fun s =>
        (((match b.authority with
          | none => some []
          | some a => (a.write S b.normalize).map fun t => '/' :: '/' :: t : Option Str).bind fun a =>
            ((b.writePath S abs).bind fun p => 
              (((writeOpt ['?'] (fun q => if b.normalize then normalize_query S q else some q) b.query).bind
                fun q => (writeOpt ['#'] (fun f => if b.normalize then normalize_fragment S f else some f)
                  b.fragment).map fun f => q ++ f)).map fun q => p ++ q).map fun p => a ++ p)).map
              fun a => s ++ a := by
    unfold Builder.write
    simp only [Option.bind_eq_bind, Option.bind_some]
    generalize writeOpt ['?'] (fun q => if b.normalize = true then normalize_query S q else some q) b.query = Q
    generalize writeOpt ['#'] (fun f => if b.normalize = true then normalize_fragment S f else some f)
      b.fragment = G
    generalize b.writePath S abs = P
    rcases b.scheme with _ | s <;> rcases b.authority with _ | a <;> dsimp only
    · cases P <;> cases Q <;> cases G <;> rfl
    · cases a.write S b.normalize <;> cases P <;> cases Q <;> cases G <;> rfl
    · cases P <;> cases Q <;> cases G <;> rfl
    · cases a.write S b.normalize <;> cases P <;> cases Q <;> cases G <;> rfl
  generalize ((writeOpt ['?'] (fun q => if b.normalize then normalize_query S q else some q) b.query).bind
    fun q => (writeOpt ['#'] (fun f => if b.normalize then normalize_fragment S f else some f)
      b.fragment).map fun f => q ++ f) = QF at hq e
  have hp : WritesU (fun _ w => (do
      if !b.normalize then put w b.path
      else if b.scheme.isSome || b.authority.isSome || abs then
        fmtWriteNormalizeW F dbg S w .default b.authority.isSome (PathToNormalize.from_single_path b.path)
      else pctCaseW F dbg S w b.path
      optW w ['?'] (fun q => if b.normalize then pctCaseW F dbg S w q else put w q) b.query
      optW w ['#'] (fun q => if b.normalize then pctCaseW F dbg S w q else put w q) b.fragment))
      ((b.writePath S abs).bind fun p => QF.map fun q => p ++ q) := by
    unfold Builder.writePath
    by_cases h1 : (!b.normalize) = true
    · simp only [h1, if_true]
      exact WritesU.then (Writes.put b.path) hq rfl
    · simp only [h1, Bool.false_eq_true, if_false]
      exact WritesU.iteThen (fun _ => fmtWriteNormalizeW_writes hF dbg S .default _ (from_single_path_inv b.path).1)
        (fun _ => pctCaseW_writes hF dbg S b.path) hq
  generalize ((b.writePath S abs).bind fun p => QF.map fun q => p ++ q) = PQ at hp e
  have ha : WritesU (fun _ w => (do
      match b.authority with
      | none => pure ()
      | some a => do
        put w ['/', '/']
        authorityW F dbg S b.normalize w a
      if !b.normalize then put w b.path
      else if b.scheme.isSome || b.authority.isSome || abs then
        fmtWriteNormalizeW F dbg S w .default b.authority.isSome (PathToNormalize.from_single_path b.path)
      else pctCaseW F dbg S w b.path
      optW w ['?'] (fun q => if b.normalize then pctCaseW F dbg S w q else put w q) b.query
      optW w ['#'] (fun q => if b.normalize then pctCaseW F dbg S w q else put w q) b.fragment))
      ((match b.authority with
        | none => some []
        | some a => (a.write S b.normalize).map fun t => '/' :: '/' :: t : Option Str).bind fun a =>
          PQ.map fun p => a ++ p) := by
    cases hb : b.authority with
    | none =>
      rw [hb] at hp
      refine WritesU.cast hp ?_
      cases PQ <;> rfl
    | some a =>
      rw [hb] at hp
      refine WritesU.then (Writes.put _) (WritesU.then (authorityW_writes hF dbg S b.normalize a) hp rfl) ?_
      dsimp only
      cases a.write S b.normalize <;> cases PQ <;> rfl
  generalize ((match b.authority with
        | none => some []
        | some a => (a.write S b.normalize).map fun t => '/' :: '/' :: t : Option Str).bind fun a =>
          PQ.map fun p => a ++ p) = APQ at ha e
  rw [e]
  cases hs : b.scheme with
  | none =>
    rw [hs] at ha
    refine WritesU.cast ha ?_
    cases APQ <;> rfl
  | some s =>
    rw [hs] at ha
    refine WritesU.cast (WritesU.iteThen (fun _ => normalizeSchemeW_writes s) (fun _ => Writes.put s)
      (WritesU.then (Writes.put _) ha rfl)) ?_
    dsimp only
    cases b.normalize <;> cases APQ <;> simp

/-! ### Resolution and normalization -/

omit hF in
theorem from_iri_inv {iri : Str} {i : NormalizationInput} (h : NormalizationInput.from_iri iri = some i)
    (m : NormalizationMode) : InputInv (i.withMode m) := by
  unfold NormalizationInput.from_iri at h
  simp only [Option.bind_eq_bind, Option.bind_eq_some_iff] at h
  obtain ⟨c, _, s, _, e⟩ := h
  cases e
  intro p hp
  cases hp
  exact (from_single_path_inv _).1

theorem normalizeW_writes (dbg : Bool) (S : Spec) (m : NormalizationMode) (iri : Str) :
    WritesU (fun _ w => normalizeW F dbg S m iri w)
      ((NormalizationInput.from_iri iri).bind fun i => (i.withMode m).display S) :=
  WritesU.lift (fun _ h => normalizedW_writes hF dbg S (from_iri_inv h m)) rfl

theorem resolveW_writes (dbg : Bool) (S : Spec) (m : NormalizationMode) {b r : Parts} (hb : b.Valid S)
    (hs : b.scheme ≠ none) (hr : r.Valid S) :
    WritesU (fun _ w => resolveW F dbg S m b.recompose r.recompose w) (resolve S m b.recompose r.recompose) := by
  refine WritesU.lift (fun i h => normalizedW_writes hF dbg S ?_) rfl
  obtain ⟨x, np, _, hin, h1, h2⟩ := resolution_input hb hs hr
  rw [hin] at h
  cases h
  intro p hp
  have hp : np = .needsProcessing p := hp
  cases hc : samePath r with
  | true => rw [h1 hc] at hp; cases hp
  | false =>
    obtain ⟨q, e, hi, _⟩ := h2 hc
    rw [e] at hp
    cases hp
    exact hi

/-! ### Percent-encoding -/

omit hF in
theorem writePieces_append {τ : Type} (w : Writer τ) (a b : List Str) (t : τ) :
    Tpl.writePieces w t (a ++ b) = Tpl.seqW (Tpl.writePieces w t a) fun t => Tpl.writePieces w t b := by
  induction a generalizing t with
  | nil => rfl
  | cons s a ih =>
    simp only [List.cons_append, Tpl.writePieces]
    rcases w t s with _ | ⟨t, _ | _⟩
    · rfl
    · rfl
    · exact ih t

omit hF in
theorem writePieces_putAll {τ : Type} (w : Writer τ) (ps : List Str) (t : τ) :
    ((Tpl.writePieces w t ps).map fun o => (o.1, if o.2 then some () else none)) = putAll w ps t := by
  induction ps generalizing t with
  | nil => rfl
  | cons s ps ih =>
    simp only [Tpl.writePieces, putAll]
    show _ = WM.andThen (put w s) (fun _ => putAll w ps) t
    unfold WM.andThen put
    rcases w t s with _ | ⟨t, _ | _⟩
    · rfl
    · rfl
    · exact ih t

/-- The pieces that the filter makes of a text. -/
def encPieces (S : Spec) (F : StdPieces) (ctx : Context) (s : Str) : List Str :=
  s.flatMap fun c => if ctx.isValidChar S c then [[c]] else (utf8 c).flatMap F.hex

omit hF in
theorem filterStr_pieces {τ : Type} (S : Spec) (ctx : Context) (w : Writer τ) (s : Str) (t : τ) :
    Tpl.filterStr S F.hex ctx w t s = Tpl.writePieces w t (encPieces S F ctx s) := by
  induction s generalizing t with
  | nil => rfl
  | cons c s ih =>
    have : encPieces S F ctx (c :: s) =
      (if ctx.isValidChar S c then [[c]] else (utf8 c).flatMap F.hex) ++ encPieces S F ctx s := rfl
    rw [this, writePieces_append, Tpl.filterStr]
    simp only [ih]
    congr 1
    unfold Tpl.filterChar Tpl.writePctChar
    split
    · simp only [Tpl.writePieces]
      rcases w t [c] with _ | ⟨t, _ | _⟩ <;> rfl
    · rfl

theorem percentEncodedW_writes (S : Spec) (ctx : Context) (raw : List Str) :
    WritesU (fun _ w => percentEncodedW F S ctx raw w) (some (percent_encode S ctx raw)) := by
  refine ⟨raw.flatMap (encPieces S F ctx), ?_, ?_⟩
  · intro s a h
    cases h
    unfold percent_encode
    induction raw with
    | nil => rfl
    | cons s r ih =>
      simp only [List.flatten_append, List.flatMap_cons, ih]
      congr 1
      unfold encWriteStr encPieces
      induction s with
      | nil => rfl
      | cons c s ih =>
        simp only [List.flatten_append, List.flatMap_cons, ih]
        congr 1
        unfold encWriteChar
        split
        · rfl
        · exact hexes hF _
  · intro τ w
    have e : ∀ t, Tpl.writePieces (Tpl.filterStr S F.hex ctx w) t raw =
        Tpl.writePieces w t (raw.flatMap (encPieces S F ctx)) := by
      intro t
      induction raw generalizing t with
      | nil => rfl
      | cons s r ih =>
        rw [List.flatMap_cons, writePieces_append, Tpl.writePieces, filterStr_pieces]
        simp only [ih]
    have : (putAll w (raw.flatMap (encPieces S F ctx)) >>= fun _ => Out.lift (some ())) =
        putAll w (raw.flatMap (encPieces S F ctx)) := bind_unit _
    show percentEncodedW F S ctx raw w = (putAll w (raw.flatMap (encPieces S F ctx)) >>= fun _ => Out.lift (some ()))
    rw [this]
    funext t
    rw [← writePieces_putAll, ← e]
    rfl

omit hF in
theorem splitAtFirst_ne {p : Char → Bool} {c : Char} {s : Str} (h : p c = false) :
    (splitAtFirst p (c :: s)).1 ≠ [] := by
  unfold splitAtFirst findSplitP
  simp only [h, Bool.false_eq_true, if_false]
  cases findSplitP p s <;> simp

omit hF in
theorem encodeLoopW_writes (fuel : Nat) (buf bytes : List Nat) :
    WritesU (fun _ w => encodeLoopW w fuel buf bytes) (percentEncodeLoop fuel buf bytes) := by
  induction fuel generalizing buf bytes with
  | zero => exact Writes.panic rfl
  | succ n ih =>
    refine WritesU.ite (fun _ => WritesU.done rfl)
      (fun _ => WritesU.lift (fun r _ => WritesU.then (Writes.put _) (ih r.2.1 r.2.2) rfl) rfl) ?_
    · rw [percentEncodeLoop]
      simp only [Option.bind_eq_bind, Option.bind_some]
      split
      · rfl
      · cases fill_by_percent_encoded buf bytes with
        | none => rfl
        | some r => 
          simp only [Option.bind_some]
          cases percentEncodeLoop n r.2.1 r.2.2 <;> rfl

omit hF in
theorem encodeBytesW_writes (s : Str) (buf : List Nat) :
    WritesU (fun _ w => encodeBytesW w s buf) (percent_encode_bytes s buf) :=
  WritesU.ite (fun _ => encodeLoopW_writes _ _ _) (fun _ => Writes.panic rfl) rfl

omit hF in
theorem writePercentEncodedW_writes (dbg : Bool) (fuel : Nat) (s : Str) :
    WritesU (fun _ w => writePercentEncodedW dbg w fuel s) (writePercentEncodedGo fuel s) := by
  induction fuel generalizing s with
  | zero => exact Writes.panic rfl
  | succ n ih =>
    rw [writePercentEncodedGo]
    by_cases h0 : s.isEmpty = true
    · simp only [writePercentEncodedW, h0, if_true]
      exact WritesU.done rfl
    simp only [writePercentEncodedW, h0, Bool.false_eq_true, if_false]
    have key : ∀ t : Str, (∀ c r, t = c :: r → isAscii c = false) →
        WritesU (fun _ w => if t.isEmpty then pure () else do
          assertD dbg (!(splitAtFirst isAscii t).1.isEmpty)
          encodeBytesW w (splitAtFirst isAscii t).1 (List.replicate (21 * 3) 0)
          writePercentEncodedW dbg w n (splitAtFirst isAscii t).2)
        (if t.isEmpty then some [] else
          (percent_encode_bytes (splitAtFirst isAscii t).1 (List.replicate (21 * 3) 0)).bind fun e =>
            (writePercentEncodedGo n (splitAtFirst isAscii t).2).map fun r => e ++ r) := by
      intro t ht
      refine WritesU.ite (fun _ => WritesU.done rfl) (fun h => ?_) rfl
      cases t with
      | nil => exact absurd rfl h
      | cons c r =>
        have := splitAtFirst_ne (s := r) (ht c r rfl)
        refine WritesU.assert (by simpa using this) ?_
        exact WritesU.then (encodeBytesW_writes _ _) (ih _) rfl
    have hk : ∀ c r t, (if (splitAtFirst (fun c => !isAscii c) s).1.isEmpty then s else
        (splitAtFirst (fun c => !isAscii c) s).2) = t → t = c :: r → isAscii c = false := by
      intro c r t e1 e2
      unfold splitAtFirst at e1
      cases hf : findSplitP (fun c => !isAscii c) s with
      | none =>
        rw [hf] at e1
        simp only [Option.getD_none, h0, Bool.false_eq_true, if_false] at e1
        rw [e2] at e1; cases e1
      | some v =>
        obtain ⟨a, b⟩ := v
        obtain ⟨c', r', e3, e4, e5, e6⟩ := findSplitP_some.1 hf
        rw [hf] at e1
        simp only [Option.getD_some] at e1
        have : t = c' :: r' := by
          subst e1
          split
          · rename_i h; rw [e4]; simp only [List.isEmpty_iff] at h; rw [h]; rfl
          · exact e3
        rw [this] at e2
        cases e2
        simpa using e5
    generalize hS : splitAtFirst (fun c => !isAscii c) s = v at hk ⊢
    obtain ⟨a, b⟩ := v
    dsimp only at hk ⊢
    have := key _ fun c r e => hk c r _ rfl e
    cases a with
    | nil =>
      simp only [List.isEmpty_nil, Bool.not_true, Bool.false_eq_true, if_false, if_true, h0] at this hk ⊢
      refine WritesU.cast this ?_
      cases s with
      | nil => exact absurd rfl h0
      | cons c r =>
        have hne : (splitAtFirst isAscii (c :: r)).1.isEmpty = false := by
          simpa using splitAtFirst_ne (s := r) (hk c r _ rfl rfl)
        simp only [hne, Bool.false_eq_true, if_false, Option.bind_eq_bind, List.nil_append]
        cases percent_encode_bytes (splitAtFirst isAscii (c :: r)).1 (List.replicate (21 * 3) 0) with
        | none => rfl
        | some e => cases writePercentEncodedGo n (splitAtFirst isAscii (c :: r)).2 <;> rfl
    | cons x a =>
      simp only [List.isEmpty_cons, Bool.not_false, Bool.false_eq_true, if_false, if_true] at this hk ⊢
      refine WritesU.then (Writes.put _) this ?_
      cases b with
      | nil => simp
      | cons c r =>
        have hne : (splitAtFirst isAscii (c :: r)).1.isEmpty = false := by
          simpa using splitAtFirst_ne (s := r) (hk c r _ rfl rfl)
        simp only [hne, Bool.false_eq_true, if_false, Option.bind_eq_bind, List.isEmpty_cons, Option.bind_some]
        cases percent_encode_bytes (splitAtFirst isAscii (c :: r)).1 (List.replicate (21 * 3) 0) with
        | none => rfl
        | some e => cases writePercentEncodedGo n (splitAtFirst isAscii (c :: r)).2 <;> rfl

/-! ### Passwords -/

omit hF in
theorem maskedW_writes (dbg : Bool) (s : Str) (st e : Nat) (alt : List Str) (he : e ≤ blen s) :
    WritesU (fun _ w => maskedW dbg w s st e alt) (write_with_masked_password s st e alt.flatten) := by
  refine WritesU.assert (by simpa using he) ?_
  refine WritesU.lift (fun a _ => WritesU.then (Writes.put a) (WritesU.then (Writes.putAll rfl)
    (WritesU.lift (fun b _ => Writes.put b) rfl) rfl) rfl) ?_
  unfold write_with_masked_password
  cases sliceTo s st <;> cases sliceFrom s e <;> rfl

omit hF in
theorem maskPasswordW_writes (dbg : Bool) {s t : Str} (h : mask_password s = some t) :
    WritesU (fun _ w => maskPasswordW dbg s w) (some t) := by
  rw [← h]
  unfold mask_password at h ⊢
  refine WritesU.lift (y := fun r => match r with
    | some (st, e) => write_with_masked_password s st e []
    | none => some s) ?_ rfl
  intro r hr
  rw [hr] at h
  rcases r with _ | ⟨st, e⟩
  · exact Writes.put s
  · refine maskedW_writes dbg s st e [[]] ?_
    simp only [Option.bind_eq_bind, Option.bind_some, write_with_masked_password, Option.bind_eq_some_iff] at h
    obtain ⟨_, _, b, hb, _⟩ := h
    obtain ⟨a, e1, e2⟩ := sliceFrom_suffix hb
    rw [e1, blen_append]
    omega

omit hF in
theorem replacePasswordW_writes (dbg : Bool) {s t : Str} (f : Str → List Str)
    (h : replace_password_with s (fun p => (f p).flatten) = some t) :
    WritesU (fun _ w => replacePasswordW dbg s f w) (some t) := by
  rw [← h]
  unfold replace_password_with at h ⊢
  refine WritesU.lift (y := fun r => match r with
    | some (st, e) => (slice s st e).bind fun pw => write_with_masked_password s st e (f pw).flatten
    | none => some s) ?_ rfl
  intro r hr
  rw [hr] at h
  rcases r with _ | ⟨st, e⟩
  · exact Writes.put s
  · refine WritesU.lift (fun pw hpw => maskedW_writes dbg s st e (f pw) ?_) rfl
    simp only [Option.bind_eq_bind, Option.bind_some, write_with_masked_password, Option.bind_eq_some_iff] at h
    obtain ⟨_, _, _, _, b, hb, _⟩ := h
    obtain ⟨a, e1, e2⟩ := sliceFrom_suffix hb
    rw [e1, blen_append]
    omega

/-! ### What the writers see -/

omit hF in
theorem putAll_sink (ok : List Str → Bool) (ps pre : List Str) :
    ((∀ xs ys, ps = xs ++ ys → xs ≠ [] → ok (pre ++ xs) = true) ∧
      putAll (Tpl.sink ok) ps pre = some (pre ++ ps, some ())) ∨
    ∃ calls, calls <+: ps ∧ calls ≠ [] ∧ ok (pre ++ calls) = false ∧
      (∀ xs ys, calls = xs ++ ys → xs ≠ [] → ys ≠ [] → ok (pre ++ xs) = true) ∧
      putAll (Tpl.sink ok) ps pre = some (pre ++ calls, none) := by
  induction ps generalizing pre with
  | nil =>
    left
    refine ⟨fun xs ys e hx => ?_, by simp [putAll]; rfl⟩
    cases xs with
    | nil => exact absurd rfl hx
    | cons _ _ => cases e
  | cons s r ih =>
    have e : putAll (Tpl.sink ok) (s :: r) pre =
        if ok (pre ++ [s]) then putAll (Tpl.sink ok) r (pre ++ [s]) else some (pre ++ [s], none) := by
      show WM.andThen (put (Tpl.sink ok) s) (fun _ => putAll (Tpl.sink ok) r) pre = _
      unfold WM.andThen put Tpl.sink
      cases ok (pre ++ [s]) <;> rfl
    cases hs : ok (pre ++ [s]) with
    | false =>
      right
      rw [hs] at e
      refine ⟨[s], ⟨r, rfl⟩, by simp, hs, ?_, e⟩
      intro xs ys e1 hx hy
      cases xs with
      | nil => exact absurd rfl hx
      | cons x xs =>
        simp only [List.cons_append, List.cons.injEq] at e1
        have := e1.2.symm
        simp only [List.append_eq_nil_iff] at this
        exact absurd this.2 hy
    | true =>
      rw [hs, if_pos rfl] at e
      rcases ih (pre ++ [s]) with ⟨h1, h2⟩ | ⟨calls, h1, h2, h3, h4, h5⟩
      · left
        refine ⟨?_, by rw [e, h2]; simp⟩
        intro xs ys e1 hx
        cases xs with
        | nil => exact absurd rfl hx
        | cons x xs =>
          simp only [List.cons_append, List.cons.injEq] at e1
          obtain ⟨rfl, e1⟩ := e1
          cases xs with
          | nil => exact hs
          | cons y xs => simpa using h1 _ _ e1 (by simp)
      · right
        refine ⟨s :: calls, by simpa using h1, by simp, by simpa using h3, ?_, by rw [e, h5]; simp⟩
        intro xs ys e1 hx hy
        cases xs with
        | nil => exact absurd rfl hx
        | cons x xs =>
          simp only [List.cons_append, List.cons.injEq] at e1
          obtain ⟨rfl, e1⟩ := e1
          cases xs with
          | nil => exact hs
          | cons y xs => simpa using h4 _ _ e1 (by simp) hy

omit hF in
theorem WritesU.pieces {m : ∀ τ : Type, Writer τ → WM τ Unit} {t : Str} (h : WritesU m (some t)) :
    ∃ ps : List Str, ps.flatten = t ∧ ∀ (τ : Type) (w : Writer τ), m τ w = putAll w ps := by
  obtain ⟨ps, h1, h2⟩ := h
  refine ⟨ps, h1 t () rfl, fun τ w => ?_⟩
  rw [h2]
  exact bind_unit _

omit hF in
theorem WritesU.displays {m : ∀ τ : Type, Writer τ → WM τ Unit} {t : Str} (h : WritesU m (some t)) :
    Displays (m (List Str)) t := by
  obtain ⟨ps, h1, h2⟩ := h.pieces
  refine ⟨ps, h1, fun ok => ?_⟩
  rw [h2]
  rcases putAll_sink ok ps [] with ⟨g1, g2⟩ | ⟨calls, g1, g2, g3, g4, g5⟩
  · exact .inl ⟨g1, g2⟩
  · exact .inr ⟨calls, g1, ⟨g4, g2, g3⟩, g5⟩

/-! ### The writers of the library itself -/

omit hF in
theorem putAll_prefixRetriever (ps : List Str) (buf : List Nat) (hb : buf.length ≤ 3) :
    ∃ r, putAll prefixRetrieverW ps buf = some ((buf ++ utf8s ps.flatten).take 3, r) := by
  induction ps generalizing buf with
  | nil => exact ⟨some (), by simp [putAll, utf8s, List.take_of_length_le hb]; rfl⟩
  | cons s r ih =>
    have e : putAll prefixRetrieverW (s :: r) buf =
        if !s.isEmpty && 3 ≤ buf.length then some (buf, none)
        else putAll prefixRetrieverW r ((buf ++ utf8s s).take 3) := by
      show WM.andThen (put prefixRetrieverW s) (fun _ => putAll prefixRetrieverW r) buf = _
      unfold WM.andThen put prefixRetrieverW
      cases (!s.isEmpty && decide (3 ≤ buf.length)) <;> rfl
    rw [e]
    split
    · rename_i h
      simp only [Bool.and_eq_true, decide_eq_true_eq] at h
      refine ⟨none, ?_⟩
      rw [List.take_append_of_le_length h.2, List.take_of_length_le hb]
    · obtain ⟨q, hq⟩ := ih ((buf ++ utf8s s).take 3) (by simp; omega)
      refine ⟨q, ?_⟩
      rw [hq]
      simp only [List.flatten_cons]
      rw [utf8s_append, ← List.append_assoc]
      congr 2
      generalize buf ++ utf8s s = x
      generalize utf8s r.flatten = y
      simp only [List.take_append, List.take_take, Nat.min_self, List.length_take]
      rcases Nat.le_total x.length 3 with h | h
      · rw [Nat.min_eq_right h]
      · rw [Nat.min_eq_left h]; simp; omega

theorem ensureRfc3986W_eq (dbg : Bool) {p : PathToNormalize} (hi : p.Inv) {b : Bool}
    (h : p.ensure_rfc3986_normalizable_with_authority_absent = some b) :
    ensureRfc3986W F dbg p = some b := by
  unfold ensure_rfc3986_normalizable_with_authority_absent at h
  rw [Option.map_eq_some_iff] at h
  obtain ⟨t, ht, rfl⟩ := h
  have hw := fmtWriteNormalizeW_writes hF dbg .uri .off false hi
  rw [ht] at hw
  obtain ⟨ps, h1, h2⟩ := hw.pieces
  unfold ensureRfc3986W
  rw [h2]
  obtain ⟨r, hr⟩ := putAll_prefixRetriever ps [] (by simp)
  rw [hr, h1]
  rfl

omit hF in
theorem putAll_charWriter (ps : List Str) (st : CharWriter) :
    putAll charWriterW ps st = some ((st.writeChunks ps).1, if (st.writeChunks ps).2 then some () else none) := by
  induction ps generalizing st with
  | nil => rfl
  | cons s r ih =>
    show WM.andThen (put charWriterW s) (fun _ => putAll charWriterW r) st = _
    unfold WM.andThen put charWriterW
    rw [CharWriter.writeChunks]
    rcases st.write_str s with ⟨st, _ | _⟩
    · rfl
    · exact ih st

theorem fromPathToDisplayW_eq (dbg : Bool) (S : Spec) {p : PathToNormalize} (hi : p.Inv) (auth : Bool)
    {c : PathCharacteristic} (h : PathCharacteristic.from_path_to_display S p auth = some c) :
    fromPathToDisplayW F dbg S p auth = some c := by
  unfold PathCharacteristic.from_path_to_display at h
  rw [Option.bind_eq_some_iff] at h
  obtain ⟨t, ht, h⟩ := h
  have hw := fmtWriteNormalizeW_writes hF dbg S .default auth hi
  rw [ht] at hw
  obtain ⟨ps, h1, h2⟩ := hw.pieces
  have hc : PathCharacteristic.ofChunks ps = some c := by
    rw [ofChunks_eq] at h ⊢
    simpa [h1] using h
  unfold fromPathToDisplayW
  rw [h2, putAll_charWriter]
  unfold PathCharacteristic.ofChunks at hc
  generalize CharWriter.writeChunks {} ps = q at hc
  obtain ⟨st, b⟩ := q
  cases b
  · exact hc
  · exact hc

omit hF in
theorem putAll_cmp (ps : List Str) (s : Str) :
    ∃ u r, putAll cmpWriterW ps s = some (u, r) ∧ ((r.isSome && u.isEmpty) = (s == ps.flatten)) := by
  induction ps generalizing s with
  | nil => exact ⟨s, some (), rfl, by cases s <;> simp⟩
  | cons x r ih =>
    have e : putAll cmpWriterW (x :: r) s = (match Fmt.stripPrefix x s with
        | some u => putAll cmpWriterW r u
        | none => some (s, none)) := by
      show WM.andThen (put cmpWriterW x) (fun _ => putAll cmpWriterW r) s = _
      unfold WM.andThen put cmpWriterW
      cases Fmt.stripPrefix x s <;> rfl
    rw [e]
    cases hs : Fmt.stripPrefix x s with
    | none =>
      refine ⟨s, none, rfl, ?_⟩
      symm
      simp only [Option.isSome_none, Bool.false_and, beq_eq_false_iff_ne, ne_eq, List.flatten_cons]
      intro h
      rw [Fmt.stripPrefix_iff.2 h] at hs
      cases hs
    | some u =>
      obtain ⟨v, q, h1, h2⟩ := ih u
      refine ⟨v, q, h1, ?_⟩
      rw [h2, Fmt.stripPrefix_iff.1 hs, List.flatten_cons, Bool.eq_iff_iff]
      simp

omit hF in
theorem eqStrDisplayW_eq {m : ∀ τ : Type, Writer τ → WM τ Unit} {t : Str} (h : WritesU m (some t)) (s : Str) :
    eqStrDisplayW s (m Str) = some (s == t) := by
  obtain ⟨ps, h1, h2⟩ := h.pieces
  unfold eqStrDisplayW
  rw [h2]
  obtain ⟨u, r, e1, e2⟩ := putAll_cmp ps s
  rw [e1, ← h1, ← e2]
  rfl

end Verif.Out
