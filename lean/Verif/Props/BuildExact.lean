import Verif.Lemmas.BuildExact
import Verif.Props.DisplayWriter
import Verif.Props.Build

/-!
# C28: `build` of a path that cannot be formatted

`Builder.build` (`Model/Build.lean`) formats the path to the end where a normalizing builder's `build`
stops as soon as it knows enough.  `buildW` (`Model/DisplayWriter.lean`) stops where the code stops.
They differ only on settings whose value cannot be displayed: so every theorem about a value that
`Builder.build` gives, or about what is displayed, is a theorem about `buildW`.
-/

namespace Verif

open Verif.Tpl (Writer sink)
open Verif.Out
open PathToNormalize

/-- The characteristic of a path that starts with a slash and cannot be formatted. -/
theorem fromPathToDisplayW_abs {F : StdPieces} (hF : F.Ok) (dbg : Bool) (S : Spec) {p : PathToNormalize} (hi : p.Inv)
    {r : Str} (hp : p.text = '/' :: r) (hn : p.fmt_write_normalize S .default false = none)
    {c : PathCharacteristic} (h : fromPathToDisplayW F dbg S p false = some c) : c.is_absolute = true := by
  obtain ⟨ps, _, hl, he⟩ := fmtWriteNormalizeW_lead hF dbg S hi hp
  rw [hn] at he
  have he : fmtWriteNormalizeW F dbg S charWriterW .default false p = _ := he _ charWriterW
  unfold fromPathToDisplayW at h
  rw [he] at h
  have e : (putAll charWriterW ps >>= fun _ => (Out.lift none : WM CharWriter Unit)) ({} : CharWriter) =
      (match putAll charWriterW ps {} with
        | none => none
        | some (t, none) => some (t, none)
        | some (_, some _) => none : Option (CharWriter × Option Unit)) := by
    show WM.andThen _ _ _ = _
    unfold WM.andThen
    rcases putAll charWriterW ps {} with _ | ⟨t, _ | _⟩ <;> rfl
  have hc := ofChunks_eq ps
  unfold PathCharacteristic.ofChunks at hc
  simp only [Option.map_none] at h
  rw [e, putAll_charWriter] at h
  generalize hw : CharWriter.writeChunks {} ps = w at h hc
  obtain ⟨st, b⟩ := w
  cases b with
  | true => simp at h
  | false =>
    simp only [Bool.false_eq_true, if_false] at h hc
    rw [hc] at h
    cases h
    rcases hl with hl | ⟨t, hl⟩
    · exfalso
      have : ∀ (ps : List Str) (st : CharWriter), st.result = none → ps.flatten = [] →
          (st.writeChunks ps).2 = true := by
        intro ps
        induction ps with
        | nil => intro st _ _; rfl
        | cons s r ih =>
          intro st h1 h2
          simp only [List.flatten_cons, List.append_eq_nil_iff] at h2
          obtain ⟨rfl, h2⟩ := h2
          have : st.write_str [] = (st, true) := by simp [CharWriter.write_str, h1]
          rw [CharWriter.writeChunks, this]
          exact ih st h1 h2
      have := this ps {} rfl hl
      rw [hw] at this
      cases this
    · rw [hl]
      cases t with
      | cons d t => simp [charOf, absChar]; split <;> rfl
      | nil =>
        exfalso
        have h2 : ∀ (ps : List Str) (st : CharWriter), st.result = none → st.is_absolute = some true →
            ps.flatten = [] → (st.writeChunks ps).2 = true := by
          intro ps
          induction ps with
          | nil => intro st _ _ _; rfl
          | cons s r ih =>
            intro st h1 h3 h2
            simp only [List.flatten_cons, List.append_eq_nil_iff] at h2
            obtain ⟨rfl, h2⟩ := h2
            have : st.write_str [] = (st, true) := by simp [CharWriter.write_str, h1]
            rw [CharWriter.writeChunks, this]
            exact ih st h1 h3 h2
        have h3 : ∀ ps : List Str, ps.flatten = ['/'] → (CharWriter.writeChunks {} ps).2 = true := by
          intro ps
          induction ps with
          | nil => intro h; cases h
          | cons s r ih =>
            intro h
            cases s with
            | nil => exact ih (by simpa using h)
            | cons c s =>
              simp only [List.flatten_cons, List.cons_append, List.cons.injEq, List.append_eq_nil_iff] at h
              obtain ⟨rfl, rfl, h⟩ := h
              exact h2 r ⟨none, some true⟩ rfl rfl h
        have := h3 ps hl
        rw [hw] at this
        cases this

theorem pathCheckW_some {F : StdPieces} (hF : F.Ok) (dbg : Bool) (S : Spec) (b : Builder) {r : Bool × Bool}
    (h : b.pathCheck S = some r) : pathCheckW F dbg S b = some r := by
  unfold Builder.pathCheck at h
  unfold pathCheckW
  split at h
  · rename_i hn
    simp only [hn, if_true]
    split at h
    · rename_i hc
      simp only [hc, if_true]
      rw [Option.map_eq_some_iff] at h ⊢
      obtain ⟨c, h1, h2⟩ := h
      exact ⟨c, C60_path_characteristic F hF dbg S b.path _ c h1, h2⟩
    · rename_i hc
      simp only [hc]
      exact h
  · rename_i hn
    simp only [hn]
    exact h

/-- If the check of a path panics at the level of texts, the path cannot be displayed. -/
theorem pathCheckW_none {F : StdPieces} (hF : F.Ok) (dbg : Bool) (S : Spec) (b : Builder) {acc abs : Bool}
    (h : b.pathCheck S = none) (hw : pathCheckW F dbg S b = some (acc, abs)) : b.writePath S abs = none := by
  unfold Builder.pathCheck at h
  unfold pathCheckW at hw
  unfold Builder.writePath
  split at h
  · rename_i hn
    simp only [hn, if_true, Bool.not_true, Bool.false_eq_true, if_false] at hw ⊢
    split at h
    · rename_i hc
      simp only [hc, if_true] at hw
      rw [Option.map_eq_none_iff] at h
      rw [Option.map_eq_some_iff] at hw
      obtain ⟨c, h1, h2⟩ := hw
      simp only [Prod.mk.injEq] at h2
      obtain ⟨_, rfl⟩ := h2
      unfold PathCharacteristic.from_path_to_display at h
      have hf : (from_single_path b.path).fmt_write_normalize S .default b.authority.isSome = none := by
        cases hf : (from_single_path b.path).fmt_write_normalize S .default b.authority.isSome with
        | none => rfl
        | some t =>
          rw [hf, Option.bind_some, ofChunks_eq] at h
          cases h
      rw [hf]
      by_cases hsa : (b.scheme.isSome || b.authority.isSome) = true
      · simp [hsa]
      · have h2 : b.authority.isSome = false := by
          cases ha : b.authority.isSome <;> simp [ha] at hsa ⊢
        rw [h2] at h1 hf
        simp only [hsa, Bool.false_or] at hc
        obtain ⟨r, hr⟩ := starts_oneslash.1 hc
        have hi := from_single_path_inv b.path
        have := fromPathToDisplayW_abs hF dbg S hi.1 (r := r) (by rw [hi.2, hr]) hf h1
        simp [this]
    · cases h
  · cases h

theorem validateW_some {F : StdPieces} (hF : F.Ok) (dbg : Bool) (S : Spec) (b : Builder) {r : Option Bool}
    (h : b.validate S = some r) : validateW F dbg S b = some r := by
  unfold Builder.validate at h
  unfold validateW
  split at h
  · rename_i hc; simp only [hc, if_true]; exact h
  · rename_i hc
    simp only [hc]
    split at h
    · rename_i hc2; simp only [hc2, if_true]; exact h
    · rename_i hc2
      simp only [hc2]
      cases hp : b.pathCheck S with
      | none => rw [hp] at h; cases h
      | some x =>
        rw [hp] at h
        rw [pathCheckW_some hF dbg S b hp]
        exact h

/-- `build` at the level of texts and `build` that stops early give the same result, unless the first
panics; then a value that the second gives cannot be displayed: every attempt to write it, to a writer
that does not fail, panics. -/
theorem C28_build_exact (F : StdPieces) (hF : F.Ok) (dbg : Bool) (S : Spec) (k : IriKind) (b : Builder) :
    (∀ r, b.build S k = some r → buildW F dbg S k b = some r) ∧
    (b.build S k = none → ∀ B, buildW F dbg S k b = some (some B) →
      B.builder = b ∧ B.display S = none ∧ builtW F dbg S B (sink fun _ => true) [] = none) := by
  constructor
  · intro r h
    unfold Builder.build at h
    unfold buildW
    split at h
    · rename_i hc; simp only [hc, if_true]; exact h
    · rename_i hc
      simp only [hc]
      rw [Option.map_eq_some_iff] at h
      obtain ⟨x, h1, h2⟩ := h
      rw [validateW_some hF dbg S b h1, ← h2]
      rfl
  · intro h B hB
    unfold Builder.build at h
    unfold buildW at hB
    split at h
    · cases h
    · rename_i hc
      simp only [hc] at hB
      rw [Option.map_eq_none_iff] at h
      simp only [Bool.false_eq_true, if_false, Option.map_eq_some_iff] at hB
      obtain ⟨x, h1, h2⟩ := hB
      cases x with
      | none => obtain ⟨_, h2, _⟩ := h2; cases h2
      | some abs =>
      obtain ⟨_, h2, h5⟩ := h2
      cases h2
      have h2 := h5
      unfold Builder.validate at h
      unfold validateW at h1
      split at h
      · cases h
      · rename_i hc1
        simp only [hc1] at h1
        split at h
        · cases h
        · rename_i hc2
          simp only [hc2, Bool.false_eq_true, if_false] at h1
          rw [Option.map_eq_none_iff] at h
          rw [Option.map_eq_some_iff] at h1
          obtain ⟨⟨acc, abs'⟩, h3, h4⟩ := h1
          have hw := pathCheckW_none hF dbg S b h h3
          have habs : abs' = abs := by
            dsimp only at h4
            split at h4
            · cases h4
            · split at h4
              · cases h4
              · split at h4
                · cases h4
                · exact Option.some.inj h4
          subst habs
          have hd : B.display S = none := by
            rw [← h2]
            unfold Built.display Builder.write
            simp only [hw, Option.bind_eq_bind]
            cases b.authority with
            | none => rfl
            | some a =>
              simp only
              cases AuthorityBuilder.write S b.normalize a <;> rfl
          refine ⟨by rw [← h2], hd, ?_⟩
          obtain ⟨ps, _, he⟩ := builtW_writes hF dbg S B
          have he : builtW F dbg S B (sink fun _ => true) = _ := he _ _
          rw [he, hd]
          show WM.andThen _ _ _ = _
          unfold WM.andThen
          rcases putAll_sink (fun _ => true) ps [] with ⟨_, g⟩ | ⟨calls, _, _, g, _⟩
          · rw [g]; rfl
          · simp at g

/-- An ill-formed path may be found out by `build` (a panic), or only when the value is displayed (a panic
as well), depending on where the stray `%` is: with the path `/%`, `build` panics; with `/a%`, it succeeds
and the value cannot be displayed.  In every build, with every standard library. -/
theorem C28_path_panics_late (F : StdPieces) (hF : F.Ok) (dbg : Bool) :
    buildW F dbg .iri .reference { path := chars! "/%", normalize := true } = none ∧
    (∃ B, buildW F dbg .iri .reference { path := chars! "/a%", normalize := true } = some (some B) ∧
      B.display .iri = none) ∧
    Builder.build .iri .reference { path := chars! "/a%", normalize := true } = none := by
  have h1 : buildW F dbg .iri .reference { path := chars! "/%", normalize := true } = none := by
    cases dbg <;> rfl
  have h2 : buildW F dbg .iri .reference { path := chars! "/a%", normalize := true } =
      some (some ⟨{ path := chars! "/a%", normalize := true }, true⟩) := by
    cases dbg <;> rfl
  have h3 : Builder.build .iri .reference { path := chars! "/a%", normalize := true } = none := by decide +kernel
  exact ⟨h1, ⟨_, h2, ((C28_build_exact F hF dbg _ _ _).2 h3 _ h2).2.1⟩, h3⟩

end Verif
