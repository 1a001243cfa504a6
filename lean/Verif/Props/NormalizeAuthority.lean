import Verif.Props.Normalize

/-!
# C20 for the authority
-/

namespace Verif

open Rfc

/-- US-ASCII lower case of a byte. -/
def lowerByte (b : Nat) : Nat := if 65 ≤ b ∧ b ≤ 90 then b + 32 else b

/-- What normalization may do to a host: the bytes it stands for stay the same, except that the
letters of a US-ASCII only host become lower case; the literal delimiters stay the same. -/
structure SameHost (S : Spec) (x y : Str) : Prop where
  /-- the bytes of a US-ASCII only host, in lower case -/
  ascii : (∀ b ∈ pctDecode x, b < 128) → pctDecode y = (pctDecode x).map lowerByte
  /-- any other host keeps its bytes -/
  unicode : (∃ b ∈ pctDecode x, 128 ≤ b) → pctDecode y = pctDecode x
  /-- no reserved triplet is decoded and no delimiter encoded -/
  delimiters : reservedToks (tokens x) = reservedToks (tokens y)
  /-- the output has upper-case triplets only, and nothing else to decode -/
  normal : PctNormText S y y

theorem asciiN_bytes {ts : List Tok} (h : ts.all tokAscii = true) :
    (ts.map asciiN).flatMap Tok.bytes = (ts.flatMap Tok.bytes).map lowerByte := by
  have k1 : ∀ c : Char, c.toNat < 128 → utf8 (toLower c) = (utf8 c).map lowerByte := by
    refine fun c hc => ascii_forall (P := fun c => utf8 (toLower c) = (utf8 c).map lowerByte) ?_ c hc
    decide +kernel
  have k2 : ∀ n : Fin 128, ¬ is_ascii_unreserved (Char.ofNat n.val) = true → lowerByte n.val = n.val := by
    decide +kernel
  induction ts with
  | nil => rfl
  | cons t r ih =>
    rw [List.all_cons, Bool.and_eq_true] at h
    rw [List.map_cons, List.flatMap_cons, List.flatMap_cons, List.map_append, ih h.2]
    congr 1
    cases t with
    | ch c => exact k1 c (by simpa [tokAscii] using h.1)
    | pct b =>
      have hb : b < 128 := by simpa [tokAscii] using h.1
      simp only [asciiN]
      split
      · show utf8 (toLower (Char.ofNat b)) = [b].map lowerByte
        rw [k1 _ (by rw [utf8_ofNat (by simp [Nat.isValidChar]; omega)]; exact hb), utf8_ofNat_ascii hb]
      · rename_i hu
        show [b] = [b].map lowerByte
        rw [List.map_singleton, k2 ⟨b, hb⟩ hu]

theorem asciiN_reserved {ts : List Tok} (h : ts.all tokAscii = true) :
    reservedToks (ts.map asciiN) = reservedToks ts := by
  have k1 : ∀ c : Char, c.toNat < 128 → reservedToks [.ch (toLower c)] = reservedToks [.ch c] := by
    refine fun c hc => ascii_forall (P := fun c => reservedToks [.ch (toLower c)] = reservedToks [.ch c]) ?_ c hc
    decide +kernel
  have k2 : ∀ n : Fin 128, is_ascii_unreserved (Char.ofNat n.val) = true →
      reservedToks [.ch (toLower (Char.ofNat n.val))] = [] := by decide +kernel
  have cs : ∀ t r, reservedToks (t :: r) = reservedToks [t] ++ reservedToks r := by
    intro t r
    unfold reservedToks
    rw [← List.filter_append]; rfl
  induction ts with
  | nil => rfl
  | cons t r ih =>
    rw [List.all_cons, Bool.and_eq_true] at h
    rw [List.map_cons, cs, cs t, ih h.2]
    congr 1
    cases t with
    | ch c => exact k1 c (by simpa [tokAscii] using h.1)
    | pct b =>
      have hb : b < 128 := by simpa [tokAscii] using h.1
      simp only [asciiN]
      split
      · rename_i hu
        rw [k2 ⟨b, hb⟩ hu]; rfl
      · rfl

theorem hostn_same {S : Spec} {h : Str} (hw : WF h) : SameHost S h (hostn S h) := by
  have hb : (tokens h).all tokAscii = (pctDecode h).all fun b => decide (b < 128) := ascii_bytes _
  have hb' : (tokens h).all tokAscii = true ↔ ∀ b ∈ pctDecode h, b < 128 := by
    rw [hb, List.all_eq_true]; simp
  by_cases ha : (tokens h).all tokAscii = true
  · have hok := asciiN_ok (tokens_ok hw) ha
    have e : hostn S h = render ((tokens h).map asciiN) := by unfold hostn; rw [if_pos ha]
    refine ⟨fun _ => ?_, fun ⟨b, h1, h2⟩ => ?_, ?_, ?_⟩
    · rw [e]; unfold pctDecode; rw [tokens_render hok, asciiN_bytes ha]
    · exact absurd (hb'.1 ha b h1) (by omega)
    · rw [e, tokens_render hok, asciiN_reserved ha]
    · rw [e]
      refine ⟨_, ?_, rfl⟩
      rw [tokens_render hok]
      have := asciiP_norm S (asciiN_ascii ha)
      have e2 : ((tokens h).map asciiN).map asciiP = (tokens h).map asciiN := by
        rw [List.map_map]
        apply List.map_congr_left
        intro t _
        cases t with
        | ch c => rfl
        | pct b =>
          simp only [Function.comp, asciiN]
          split
          · rfl
          · rename_i hu; simp only [asciiP]; rw [if_neg hu]
      rwa [e2] at this
  · have e : hostn S h = pctn S h := by unfold hostn; rw [if_neg ha]
    have m := (C20_pctNormText_meaning S _ _ hw (pctn_text hw)).1
    rw [e]
    exact ⟨fun hh => absurd (hb'.2 hh) ha, fun _ => m.bytes.symm, m.delimiters, m.normal⟩

/-- **C20** for the authority: user information keeps its meaning, the host too up to the letter case
of US-ASCII only hosts, and the port stays unless it is empty. -/
theorem C20_authority (S : Spec) (s : Str) (h : validate_uri S s = some true) (a : AuthParts)
    (ha : a.Valid S) (hs : RiReferenceStr.authority_str s = some a.recompose) :
    ∃ (t : Str) (b : AuthParts), normalize S s = some t ∧ b.Valid S ∧ RiReferenceStr.authority_str t = some b.recompose ∧
      OptRel (SameMeaning S) a.userinfo b.userinfo ∧ SameHost S a.host b.host ∧
      b.port = if a.port = some [] then none else a.port := by
  obtain ⟨p, hv, hsc, rfl⟩ := iri_parts' h
  have hn := normParts_valid (op := .default) hv hsc
  have e1 : p.authority = some a.recompose := by
    have := hv.delim.extract_authority_eq
    unfold RiReferenceStr.authority_str at hs
    rw [← this, hs]
  have sp := a.norm_spec ha
  refine ⟨_, a.norm S, normalize_eq hv hsc, ha.norm, ?_, ?_, hostn_same (host_wf ha.host), sp.port⟩
  · unfold RiReferenceStr.authority_str
    rw [hn.delim.extract_authority_eq]
    simp [normParts, NormalizationMode.case_pct, e1, authn_eq ha]
  · have := sp.userinfo
    cases hu : a.userinfo with
    | none =>
      rw [hu] at this
      revert this
      cases (a.norm S).userinfo <;> exact id
    | some x =>
      rw [hu] at this
      revert this
      cases (a.norm S).userinfo with
      | none => exact id
      | some y =>
        exact fun hh => (C20_pctNormText_meaning S _ _
          ((userinfo_iff S _).1 (ha.userinfo x hu)).wf hh).1

example : validate_uri .uri (chars! "http://%55ser@EX%41MPLE%2Fcom:/") = some true ∧
    normalize .uri (chars! "http://%55ser@EX%41MPLE%2Fcom:/") =
      some (chars! "http://User@example%2Fcom/") ∧
    pctDecode (chars! "example%2Fcom") = (pctDecode (chars! "EX%41MPLE%2Fcom")).map lowerByte := by
  decide +kernel

end Verif
