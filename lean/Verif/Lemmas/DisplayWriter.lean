import Verif.Model.DisplayWriter
import Verif.Lemmas.PathNorm
import Verif.Lemmas.Build

/-!
# The code at the level of writer calls writes the text of the text-level model

`Writes m x`: whatever the writer, `m` makes a fixed sequence of calls (it stops at the first error) and
then panics or yields its value; the texts of the calls together are the text of `x`.
-/

namespace Verif.Out

open Verif.Tpl (Writer)

variable {τ : Type} {α β : Type}

instance : LawfulMonad (WM τ) := LawfulMonad.mk'
  (id_map := by
    intro α m; funext t
    show WM.andThen m _ t = m t
    unfold WM.andThen
    rcases m t with _ | ⟨t, _ | a⟩ <;> rfl)
  (pure_bind := by intros; rfl)
  (bind_assoc := by
    intro α β γ m f g; funext t
    show WM.andThen (WM.andThen m f) g t = WM.andThen m (fun a => WM.andThen (f a) g) t
    unfold WM.andThen
    rcases m t with _ | ⟨t, _ | a⟩ <;> rfl)

/-- The standard library writes what the text-level model says. -/
structure StdPieces.Ok (F : StdPieces) : Prop where
  hex : ∀ b, (F.hex b).flatten = writePct b
  colonInt : ∀ n, (F.colonInt n).flatten = ':' :: decimal n.toNat
  colonStr : ∀ s, (F.colonStr s).flatten = ':' :: s
  v4 : ∀ a b c d, (F.v4 a b c d).flatten = ipv4Display a.toNat b.toNat c.toNat d.toNat
  v6 : ∀ a, (F.v6 a).flatten = '[' :: (a.display ++ [']'])

/-- See the head of the file. -/
def Writes (m : ∀ τ : Type, Writer τ → WM τ α) (x : Option (Str × α)) : Prop :=
  ∃ ps : List Str, (∀ s a, x = some (s, a) → ps.flatten = s) ∧
    ∀ (τ : Type) (w : Writer τ), m τ w = (putAll w ps >>= fun _ => lift (x.map Prod.snd))

/-- The same for code without a value. -/
def WritesU (m : ∀ τ : Type, Writer τ → WM τ Unit) (x : Option Str) : Prop :=
  Writes m (x.map fun s => (s, ()))

theorem lift_none_bind (k : α → WM τ β) : (lift none >>= k) = lift none := rfl
theorem lift_some (a : α) : (lift (some a) : WM τ α) = pure a := rfl

theorem putAll_append (w : Writer τ) (a b : List Str) :
    putAll w (a ++ b) = (putAll w a >>= fun _ => putAll w b) := by
  induction a with
  | nil => rfl
  | cons s r ih => simp only [List.cons_append, putAll, ih, bind_assoc]

theorem Writes.pure (a : α) {z : Option (Str × α)} (h : z = some ([], a)) :
    Writes (fun _ _ => Pure.pure a) z := by
  subst h
  exact ⟨[], by simp, fun τ w => rfl⟩

theorem Writes.panic {z : Option (Str × α)} (h : z = none) : Writes (fun _ _ => Out.panic) z := by
  subst h
  exact ⟨[], by simp, fun τ w => rfl⟩

theorem Writes.bind {m : ∀ τ : Type, Writer τ → WM τ α} {k : α → ∀ τ : Type, Writer τ → WM τ β}
    {x : Option (Str × α)} {y : α → Option (Str × β)} {z : Option (Str × β)}
    (hm : Writes m x) (hk : ∀ s a, x = some (s, a) → Writes (k a) (y a))
    (e : z = x.bind fun p => (y p.2).map fun q => (p.1 ++ q.1, q.2)) :
    Writes (fun τ w => m τ w >>= fun a => k a τ w) z := by
  subst e
  obtain ⟨ps, h1, h2⟩ := hm
  cases hx : x with
  | none =>
    refine ⟨ps, by simp, fun τ w => ?_⟩
    show (m τ w >>= fun a => k a τ w) = _
    rw [h2, hx, bind_assoc]
    rfl
  | some p =>
    obtain ⟨s, a⟩ := p
    obtain ⟨qs, h3, h4⟩ := hk s a hx
    refine ⟨ps ++ qs, ?_, fun τ w => ?_⟩
    · intro s' b h
      simp only [Option.bind_some] at h
      rw [List.flatten_append, h1 s a hx]
      cases hy : y a with
      | none => rw [hy] at h; cases h
      | some q =>
        rw [hy] at h; cases h
        rw [h3 q.1 q.2 hy]
    · show (m τ w >>= fun a => k a τ w) = _
      rw [h2, hx, bind_assoc, putAll_append, bind_assoc]
      simp only [Option.map_some, lift_some, pure_bind, h4, Option.bind_some]
      cases y a <;> rfl

theorem Writes.lift {x : Option α} {k : α → ∀ τ : Type, Writer τ → WM τ β} {z : Option (Str × β)}
    {y : α → Option (Str × β)} (hk : ∀ a, x = some a → Writes (k a) (y a)) (e : z = x.bind y) :
    Writes (fun τ w => Out.lift x >>= fun a => k a τ w) z := by
  subst e
  cases x with
  | none => exact ⟨[], by simp, fun τ w => rfl⟩
  | some a => exact hk a rfl

theorem bind_unit (m : WM τ Unit) : (m >>= fun _ => Pure.pure ()) = m := by
  funext t
  show WM.andThen m _ t = m t
  unfold WM.andThen
  rcases m t with _ | ⟨t, _ | a⟩ <;> rfl

theorem Writes.putAll {ps : List Str} {z : Option Str} (h : z = some ps.flatten) :
    WritesU (fun _ w => Out.putAll w ps) z := by
  subst h
  refine ⟨ps, by simp, fun τ w => ?_⟩
  simp only [Option.map_some, lift_some, bind_unit]

theorem Writes.put (s : Str) : WritesU (fun _ w => Out.put w s) (some s) := by
  refine ⟨[s], by simp, fun τ w => ?_⟩
  simp only [Out.putAll, bind_assoc, Option.map_some, lift_some, bind_unit]

/-- First `m`, then `n`. -/
theorem WritesU.seq {m : ∀ τ : Type, Writer τ → WM τ Unit} {n : ∀ τ : Type, Writer τ → WM τ β}
    {x : Option Str} {y z : Option (Str × β)} (hm : WritesU m x) (hn : Writes n y)
    (e : z = x.bind fun s => y.map fun q => (s ++ q.1, q.2)) :
    Writes (fun τ w => m τ w >>= fun _ => n τ w) z :=
  Writes.bind (k := fun _ τ w => n τ w) (y := fun _ => y) hm (fun _ _ _ => hn)
    (by rw [e]; cases x <;> rfl)

theorem WritesU.then {m n : ∀ τ : Type, Writer τ → WM τ Unit}
    {x y z : Option Str} (hm : WritesU m x) (hn : WritesU n y)
    (e : z = x.bind fun s => y.map fun q => s ++ q) :
    WritesU (fun τ w => m τ w >>= fun _ => n τ w) z :=
  WritesU.seq hm hn (by rw [e]; cases x <;> cases y <;> rfl)

theorem WritesU.done {z : Option Str} (h : z = some []) : WritesU (fun _ _ => Pure.pure ()) z :=
  Writes.pure () (by rw [h]; rfl)

theorem WritesU.lift {x : Option α} {k : α → ∀ τ : Type, Writer τ → WM τ Unit} {z : Option Str}
    {y : α → Option Str} (hk : ∀ a, x = some a → WritesU (k a) (y a)) (e : z = x.bind y) :
    WritesU (fun τ w => Out.lift x >>= fun a => k a τ w) z :=
  Writes.lift hk (by rw [e]; cases x <;> rfl)

theorem WritesU.assert {dbg c : Bool} {k : ∀ τ : Type, Writer τ → WM τ Unit} {z : Option Str}
    (hc : c = true) (h : WritesU k z) : WritesU (fun τ w => assertD dbg c >>= fun _ => k τ w) z := by
  subst hc
  simpa [assertD] using h

theorem WritesU.ite {c : Prop} [Decidable c] {m n : ∀ τ : Type, Writer τ → WM τ Unit} {x y z : Option Str}
    (hm : c → WritesU m x) (hn : ¬ c → WritesU n y) (e : z = if c then x else y) :
    WritesU (fun τ w => if c then m τ w else n τ w) z := by
  subst e
  by_cases h : c
  · simpa [h] using hm h
  · simpa [h] using hn h

theorem WritesU.pick {c : Prop} [Decidable c] {s : Str} {ps : List Str} {t : Str} (h : ps.flatten = t)
    {m : ∀ τ : Type, Writer τ → WM τ Unit} {y : Option Str} (hm : WritesU m y) :
    WritesU (fun τ w => if c then (Out.put w s >>= fun _ => m τ w) else (Out.putAll w ps >>= fun _ => m τ w))
      (y.map fun q => (if c then s else t) ++ q) := by
  by_cases hc : c
  · simpa [hc] using WritesU.then (Writes.put s) hm rfl
  · simp only [hc, if_false]
    exact WritesU.then (Writes.putAll (by rw [h])) hm rfl

variable {F : StdPieces} (hF : F.Ok)
include hF

theorem hexes (bs : List Nat) : (bs.flatMap F.hex).flatten = bs.flatMap writePct := by
  induction bs with
  | nil => rfl
  | cons b r ih => simp [hF.hex, ih]

/-! ## `src/normalize/pct_case.rs` -/

/-- The result of the text-level loop over the continuation bytes, as text and the rest. -/
def contText : ContRes → Str × ContW
  | .full buf rest => ([], .full buf rest)
  | .again out rest => (out, .again rest)
  | .stop out => (out, .stop)

theorem takeContW_writes (n : Nat) (buf : List Nat) (rest : Str) :
    Writes (fun _ w => takeContW F w n buf rest) ((takeCont n buf rest).map contText) := by
  induction n generalizing buf rest with
  | zero => exact Writes.pure _ rfl
  | succ n ih =>
    cases rest with
    | nil =>
      exact WritesU.seq (y := some ([], .stop)) (Writes.putAll rfl) (Writes.pure _ rfl)
        (by simp [takeCont, contText, hexes hF])
    | cons c after =>
      unfold takeContW takeCont
      by_cases hc : (c == '%') = true
      · simp only [hc, if_true]
        refine Writes.lift (y := fun r => ((if !is_utf8_byte_continue r.1 then
            some (.again (buf.flatMap writePct) (c :: after)) else
            takeCont n (buf ++ [r.1]) r.2).map contText)) ?_ ?_
        · intro r _
          by_cases hb : is_utf8_byte_continue r.1 = true
          · simpa [hb] using ih _ _
          · simp only [hb, Bool.not_false, if_true]
            exact WritesU.seq (y := some ([], .again (c :: after))) (Writes.putAll rfl) (Writes.pure _ rfl)
              (by simp [contText, hexes hF])
        · cases take_xdigits2 after with
          | none => rfl
          | some r => rfl
      · simp only [hc]
        exact WritesU.seq (y := some ([c], .again after)) (Writes.putAll rfl)
          (WritesU.seq (y := some ([], .again after)) (Writes.put _) (Writes.pure _ rfl) (by simp))
          (by simp [contText, hexes hF])

omit hF in
theorem takeCont_cont {n : Nat} {buf : List Nat} {rest : Str} {buf' : List Nat} {rest' : Str}
    (h : takeCont n buf rest = some (.full buf' rest')) (hb : buf ≠ [])
    (ha : buf.tail.all is_utf8_byte_continue = true) : buf'.tail.all is_utf8_byte_continue = true := by
  induction n generalizing buf rest with
  | zero => simp [takeCont] at h; rw [← h.1]; exact ha
  | succ n ih =>
    unfold takeCont at h
    split at h
    · cases h
    · split at h
      · split at h
        · cases h
        · split at h
          · cases h
          · rename_i hc
            refine ih h (by simp) ?_
            cases buf with
            | nil => exact absurd rfl hb
            | cons b r =>
              simp only [List.cons_append, List.tail_cons, List.all_append, List.all_cons, List.all_nil,
                Bool.and_true] at ha ⊢
              rw [ha]; simpa using hc
      · cases h

/-- What the loop does after the continuation bytes. -/
def contTail (S : Spec) (fuel n : Nat) (after_first : Str) : ContW → Option Str
  | .stop => some []
  | .again rest => pct_case_go S fuel rest
  | .full buf rest =>
    (into_char_trusted buf).bind fun d =>
      match d with
      | some c => (pct_case_go S fuel rest).map fun t =>
          ((if is_unreserved S c then [c] else buf.flatMap writePct) ++ t)
      | none => (sliceFrom after_first ((n - 1) * 3)).bind fun rest =>
          (pct_case_go S fuel rest).map fun t => (buf.flatMap writePct ++ t)

/-- What the loop does after the first triplet. -/
def tripletTail (S : Spec) (fuel : Nat) (r : Nat × Str) : Option Nat → Option Str
  | none => (pct_case_go S fuel r.2).map fun t => (writePct r.1 ++ t)
  | some n => ((takeCont (n - 1) [r.1] r.2).map contText).bind fun o =>
      (contTail S fuel n r.2 o.2).map fun t => o.1 ++ t

/-- What the loop does after the text before the triplet. -/
def afterPct (S : Spec) (fuel : Nat) (r : Nat × Str) : Option Str :=
  if r.1 < 0x80 then (pct_case_go S fuel r.2).map fun t =>
    ((if is_ascii_unreserved (Char.ofNat r.1) then [Char.ofNat r.1] else writePct r.1) ++ t)
  else tripletTail S fuel r (expectedLen r.1)

omit hF in
theorem pct_case_go_eq (S : Spec) (fuel : Nat) (s : Str) :
    pct_case_go S (fuel + 1) s =
      match find_split_hole s '%' with
      | none => some s
      | some (pre, after) => ((take_xdigits2 after).bind (afterPct S fuel)).map fun t => pre ++ t := by
  rw [pct_case_go]
  cases find_split_hole s '%' with
  | none => rfl
  | some v =>
    obtain ⟨pre, after⟩ := v
    dsimp only
    cases take_xdigits2 after with
    | none => rfl
    | some r =>
      obtain ⟨b, rest⟩ := r
      simp only [afterPct, Option.bind_some]
      split
      · cases pct_case_go S fuel rest <;> rfl
      · cases expectedLen b with
        | none => simp only [tripletTail]; cases pct_case_go S fuel rest <;> rfl
        | some n =>
          simp only [tripletTail]
          cases takeCont (n - 1) [b] rest with
          | none => rfl
          | some o =>
            cases o with
            | stop out => simp [contText, contTail]
            | again out rest =>
              simp only [Option.map_some, Option.bind_some, contText, contTail]
              cases pct_case_go S fuel rest <;> rfl
            | full buf rest' =>
              simp only [Option.map_some, Option.bind_some, contText, contTail]
              cases into_char_trusted buf with
              | none => rfl
              | some d =>
                cases d with
                | some c =>
                  simp only [Option.bind_some]
                  cases pct_case_go S fuel rest' <;> rfl
                | none =>
                  simp only [Option.bind_some]
                  cases sliceFrom rest ((n - 1) * 3) with
                  | none => rfl
                  | some q =>
                    simp only [Option.bind_some]
                    cases pct_case_go S fuel q <;> rfl

theorem pctCaseGo_writes (dbg : Bool) (S : Spec) (fuel : Nat) (s : Str) :
    WritesU (fun _ w => pctCaseGo F dbg S w fuel s) (pct_case_go S fuel s) := by
  induction fuel generalizing s with
  | zero => exact Writes.panic rfl
  | succ fuel ih =>
    unfold pctCaseGo
    rw [pct_case_go_eq]
    by_cases hs : s.isEmpty = true
    · simp only [hs, if_true]
      refine WritesU.done ?_
      rw [List.isEmpty_iff.1 hs]; rfl
    · simp only [hs]
      cases hfs : find_split_hole s '%' with
      | none => exact Writes.put _
      | some v =>
        obtain ⟨pre, after⟩ := v
        refine WritesU.then (y := (take_xdigits2 after).bind (afterPct S fuel))
          (Writes.put pre) (WritesU.lift ?_ rfl) rfl
        intro r hr
        refine WritesU.ite (fun h => WritesU.assert (by simpa using h) ?_) (fun h => ?_) rfl
        · exact WritesU.pick (hF.hex _) (ih _)
        · cases hl : expectedLen r.1 with
          | none => exact WritesU.then (Writes.putAll (by rw [hF.hex])) (ih _) rfl
          | some n =>
            refine Writes.bind (takeContW_writes hF (n - 1) [r.1] r.2)
              (y := fun o => (contTail S fuel n r.2 o).map fun t => (t, ())) ?_ ?_
            · intro o c hc
              cases c with
              | stop => exact WritesU.done rfl
              | again rest => exact ih rest
              | full buf rest =>
                refine WritesU.lift ?_ rfl
                intro d hd
                cases d with
                | some c => exact WritesU.pick (hexes hF _) (ih _)
                | none =>
                  refine WritesU.assert ?_ (WritesU.lift (fun rest _ => ?_) rfl)
                  · cases ht : takeCont (n - 1) [r.1] r.2 with
                    | none => rw [ht] at hc; cases hc
                    | some res =>
                      rw [ht] at hc
                      cases res <;> simp [contText] at hc
                      obtain ⟨_, rfl, rfl⟩ := hc
                      exact takeCont_cont ht (by simp) rfl
                  · exact WritesU.then (Writes.putAll (by rw [hexes hF])) (ih _) rfl
            · simp only [tripletTail]
              cases takeCont (n - 1) [r.1] r.2 with
              | none => rfl
              | some o =>
                simp only [Option.map_some, Option.bind_some]
                cases contTail S fuel n r.2 (contText o).2 <;> rfl

theorem pctCaseW_writes (dbg : Bool) (S : Spec) (s : Str) :
    WritesU (fun _ w => pctCaseW F dbg S w s) (pct_case_normalized S s) :=
  pctCaseGo_writes hF dbg S _ s

omit hF in
theorem flatten_map_single (f : Char → Char) (s : Str) : (s.map fun c => [f c]).flatten = s.map f := by
  induction s with
  | nil => rfl
  | cons c r ih => simp [ih]

theorem asciiHostGo_writes (fuel : Nat) (s : Str) :
    WritesU (fun _ w => asciiHostGo F w fuel s) (ascii_host_go fuel s) := by
  induction fuel generalizing s with
  | zero => exact Writes.panic rfl
  | succ fuel ih =>
    unfold asciiHostGo ascii_host_go
    by_cases hs : s.isEmpty = true
    · simp only [hs, if_true]
      refine WritesU.done ?_
      rw [List.isEmpty_iff.1 hs]; rfl
    · simp only [hs]
      cases hfs : find_split_hole s '%' with
      | none => exact Writes.putAll (by rw [flatten_map_single])
      | some v =>
        obtain ⟨pre, after⟩ := v
        refine WritesU.then (y := (take_xdigits2 after).bind fun r => if r.1 < 128 then
            (ascii_host_go fuel r.2).map fun t => ((if is_ascii_unreserved (Char.ofNat r.1)
              then [toLower (Char.ofNat r.1)] else writePct r.1) ++ t) else none)
          (Writes.putAll rfl) (WritesU.lift ?_ rfl) ?_
        · intro r hr
          refine WritesU.ite (fun h => ?_) (fun h => Writes.panic rfl) rfl
          exact WritesU.pick (hF.hex _) (ih _)
        · rw [flatten_map_single]
          dsimp only
          cases take_xdigits2 after with
          | none => rfl
          | some r =>
            obtain ⟨b, rest⟩ := r
            simp only [Option.bind_some]
            split
            · cases ascii_host_go fuel rest <;> rfl
            · rfl

theorem asciiHostW_writes (s : Str) :
    WritesU (fun _ w => asciiHostW F w s) (normalized_ascii_only_host s) := asciiHostGo_writes hF _ s

end Verif.Out
