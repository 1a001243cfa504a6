import Verif.Lemmas.IpAddr
import Verif.Props.Build

/-!
# C50: numbers and IP addresses given to the builder

What they denote is specified in `Spec/IpAddr.lean`.
-/

namespace Verif

open Verif.Abnf Verif.Rfc Verif.IpSpec Verif.BuildSpec

theorem hostn_ip {S : Spec} {h : HostRepr} (hi : ∀ s, h ≠ .string s) (hv : host S (hostText h)) :
    hostn S (hostText h) = hostText h := by
  have := host_write hv true
  cases h with
  | string s => exact absurd rfl (hi s)
  | ipv4 a b c d => exact (Option.some.inj this).symm
  | ipv6 a => exact (Option.some.inj this).symm

theorem portn_number (n : Nat) : portn (some (decimal n)) = some (decimal n) := by
  unfold portn
  rw [if_neg]
  intro e
  have : 0 < (decimal n).length := Nat.length_toDigits_pos
  rw [Option.some.inj e] at this
  cases this

/-- The authority of the text that is displayed. -/
theorem built_authority {S : Spec} {k : IriKind} {b : Builder} {a : AuthorityBuilder}
    (ha : b.authority = some a) (hp : Rfc.path S b.path) {B : Built} (hB : b.build S k = some (some B)) :
    ∃ s ap, B.display S = some s ∧ grammar S k s ∧ (ap : AuthParts).Valid S ∧
      RiReferenceStr.authority_components s = some (decompose_authority ap.recompose) ∧
      ap = (if b.normalize then (authParts a).norm S else authParts a) ∧ (authParts a).Valid S := by
  obtain ⟨h1, h2⟩ := build_eq (S := S) (b := b) (fun _ => (path_iff.1 hp).wf) k
  by_cases hacc : Acceptable S k b
  · obtain ⟨B', h3, _, h5⟩ := h1 hacc
    rw [hB] at h3
    cases h3
    have hav := (hacc.authority a ha).1
    have hr : ¬ RootPathCase b := by
      rintro ⟨_, h, _⟩; rw [ha] at h; cases h
    have hv : (outParts S b).Valid S := by
      cases hn : b.normalize with
      | true => exact outParts_valid hn hacc hp hr
      | false =>
        unfold outParts
        rw [if_pos hn]
        exact parts_valid hacc hp fun e => hacc.withoutAuthority e hn
    refine ⟨_, _, h5, grammar_of_parts hv (outKind hacc), ?_, ?_, rfl, hav⟩
    · split
      · exact hav.norm
      · exact hav
    · have d := hv.delim
      simp only [RiReferenceStr.authority_components, AuthorityComponents.from_iri, d.extract_authority_eq]
      have : (outParts S b).authority = some
          (if b.normalize then (authParts a).norm S else authParts a).recompose := by
        unfold outParts
        cases hn : b.normalize with
        | false => simp [parts, ha]
        | true =>
          simp only [Bool.true_eq_false, if_false, normParts, parts, ha, Option.map_some,
            NormalizationMode.case_pct, if_true]
          rw [authn_eq hav]
      rw [this]
      rfl
  · rw [h2 hacc] at hB
    cases hB

/-- **C50, IPv4 address.**  Whatever the other settings (with a path of the grammar), when `build`
succeeds the host of the text denotes the address that was set. -/
theorem C50_ipv4 (S : Spec) (k : IriKind) (b : Builder) (a : AuthorityBuilder) (w x y z : UInt8)
    (ha : b.authority = some a) (hh : a.host = .ipv4 w x y z) (hp : Rfc.path S b.path) (B : Built)
    (hB : b.build S k = some (some B)) :
    ∃ s ac h, B.display S = some s ∧ grammar S k s ∧ RiReferenceStr.authority_components s = some ac ∧
      ac.host = some h ∧ IPv4address h ∧ v4 h = [w.toNat, x.toNat, y.toNat, z.toNat] := by
  obtain ⟨s, ap, h1, h2, h3, h4, h5, h6⟩ := built_authority ha hp hB
  refine ⟨s, _, _, h1, h2, h4, by rw [decompose_authority_eq h3]; exact offsets_host ap, ?_⟩
  have e : ap.host = hostText a.host := by
    rw [h5]
    split
    · exact hostn_ip (by rw [hh]; intro s e; cases e) h6.host
    · rfl
  rw [e, hh]
  exact ⟨ipv4Display_ok w.toNat_lt x.toNat_lt y.toNat_lt z.toNat_lt, v4_display _ _ _ _⟩

/-- **C50, IPv6 address.** -/
theorem C50_ipv6 (S : Spec) (k : IriKind) (b : Builder) (a : AuthorityBuilder) (addr : Ipv6Addr)
    (ha : b.authority = some a) (hh : a.host = .ipv6 addr) (hp : Rfc.path S b.path) (B : Built)
    (hB : b.build S k = some (some B)) :
    ∃ s ac t, B.display S = some s ∧ grammar S k s ∧ RiReferenceStr.authority_components s = some ac ∧
      ac.host = some ('[' :: (t ++ [']'])) ∧ IPv6address t ∧ v6 t = addr.segments.map UInt16.toNat := by
  obtain ⟨s, ap, h1, h2, h3, h4, h5, h6⟩ := built_authority ha hp hB
  have e : ap.host = '[' :: (addr.display ++ [']']) := by
    rw [h5]
    have : hostText a.host = '[' :: (addr.display ++ [']']) := by rw [hh]; rfl
    split
    · exact (hostn_ip (by rw [hh]; intro s e; cases e) h6.host).trans this
    · exact this
  exact ⟨s, _, addr.display, h1, h2, h4, by rw [decompose_authority_eq h3, ← e]; exact offsets_host ap,
    ipv6Display_ok addr, v6_display addr⟩

/-- **C50, port number.** -/
theorem C50_port (S : Spec) (k : IriKind) (b : Builder) (a : AuthorityBuilder) (n : UInt16)
    (ha : b.authority = some a) (hh : a.port = .integer n) (hp : Rfc.path S b.path) (B : Built)
    (hB : b.build S k = some (some B)) :
    ∃ s ac p, B.display S = some s ∧ grammar S k s ∧ RiReferenceStr.authority_components s = some ac ∧
      ac.port = some (some p) ∧ number 10 p = n.toNat := by
  obtain ⟨s, ap, h1, h2, h3, h4, h5, h6⟩ := built_authority ha hp hB
  have e : ap.port = some (decimal n.toNat) := by
    rw [h5]
    have : (authParts a).port = some (decimal n.toNat) := by unfold authParts; rw [hh]; rfl
    split
    · show portn (authParts a).port = _
      rw [this]; exact portn_number _
    · exact this
  exact ⟨s, _, decimal n.toNat, h1, h2, h4, by rw [decompose_authority_eq h3, ← e]; exact offsets_port ap,
    number_toDigits (by omega) (by omega) _⟩

/-- Different addresses are displayed differently. -/
theorem C50_injective (a b : Ipv6Addr) (h : a.display = b.display) : a = b := by
  have e : a.segments.map UInt16.toNat = b.segments.map UInt16.toNat := by
    rw [← v6_display, ← v6_display, h]
  obtain ⟨x, _⟩ := a
  obtain ⟨y, _⟩ := b
  simp only [Ipv6Addr.mk.injEq]
  exact List.map_inj_right (fun _ _ h => UInt16.toNat_inj.1 h) |>.1 e

/-! ## The hypotheses are met -/

def exampleIp : Builder where
  scheme := some (chars! "http")
  authority := some {
    host := .ipv6 ⟨[0x2001, 0xdb8, 0, 0, 1, 0, 0, 1], rfl⟩
    port := .integer 8080 }
  path := chars! "/a"

example : Builder.build .uri .iri exampleIp = some (some ⟨exampleIp, true⟩) ∧
    Built.display .uri ⟨exampleIp, true⟩ = some (chars! "http://[2001:db8::1:0:0:1]:8080/a") ∧
    v6 (chars! "2001:db8::1:0:0:1") = [0x2001, 0xdb8, 0, 0, 1, 0, 0, 1] := by
  decide +kernel

example : v6 (chars! "::ffff:192.0.2.1") = [0, 0, 0, 0, 0, 0xffff, 0xc000, 0x201] := by decide +kernel
example : v4 (chars! "127.0.0.1") = [127, 0, 0, 1] := by decide +kernel

end Verif
