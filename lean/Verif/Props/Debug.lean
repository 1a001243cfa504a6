import Verif.Spec.Debug
import Verif.Props.Edit
import Verif.Props.Build

/-!
# C57: passwords are not shown by `Debug`; C58: format options
-/

namespace Verif

open Rfc

/-! ## C57 -/

theorem WithPassword.debug_eq {user : Str} {u : UserinfoRepr} (h : WithPassword user u) :
    u.debug = .node (chars! "UserinfoBuilder") [(chars! "user", .str user),
      (chars! "password", .node (chars! "Some") [([], .raw (chars! "{censored}"))])] := by
  cases h with
  | direct hc =>
    simp [UserinfoRepr.debug, UserinfoRepr.to_user_password, find_split_eq hc, Dbg.opt, Dbg.censored]
  | pair hp =>
    unfold UserinfoRepr.debug UserinfoRepr.to_user_password
    simp [Dbg.opt, Dbg.censored, hp]

/-- **C57.**  The `Debug` output of builders that differ in the password only is the same, also after
`build()`: nothing about a password can be learnt from it. -/
theorem C57_builder (b b' : Builder) (h : SameButPassword b b') :
    b.debug = b'.debug ∧ ∀ x, Built.debug ⟨b, x⟩ = Built.debug ⟨b', x⟩ := by
  obtain ⟨a, a', user, h1, h2, h3, h4, h5, h6⟩ := h
  have e : b.debug = b'.debug := by
    rw [h6]
    unfold Builder.debug
    simp only [h1, h2, Dbg.opt]
    rw [h5]
    unfold AuthorityBuilder.debug
    simp only [h3.debug_eq, h4.debug_eq]
  exact ⟨e, fun x => by unfold Built.debug; simp only [e]⟩

/-- The tree given to the formatter. -/
def UserShown.tree : UserShown → Dbg
  | .nothing => .node (chars! "UserinfoBuilder") []
  | .noPassword u => .node (chars! "UserinfoBuilder") [(chars! "user", .str u), (chars! "password", .raw (chars! "None"))]
  | .emptyPassword u => .node (chars! "UserinfoBuilder") [(chars! "user", .str u),
      (chars! "password", .node (chars! "Some") [([], .str [])])]
  | .censored u => .node (chars! "UserinfoBuilder") [(chars! "user", .str u),
      (chars! "password", .node (chars! "Some") [([], .raw (chars! "{censored}"))])]

/-- **C57.**  Exactly the user name, and whether there is a password, is shown of user information. -/
theorem C57_userinfo (u : UserinfoRepr) : ∃ x, Shown u x ∧ u.debug = x.tree := by
  cases u with
  | absent => exact ⟨_, .absent, rfl⟩
  | direct u =>
    cases hf : find_split u ':' with
    | none =>
      refine ⟨_, .direct (find_split_none.1 hf), ?_⟩
      simp [UserinfoRepr.debug, UserinfoRepr.to_user_password, hf, Dbg.opt, UserShown.tree]
    | some x =>
      obtain ⟨a, r, rfl, hc⟩ : ∃ a r, u = a ++ ':' :: r ∧ ':' ∉ a := by
        have : ':' ∈ u := by
          apply Classical.byContradiction
          intro hn
          rw [find_split_none.2 hn] at hf
          cases hf
        exact List.eq_append_cons_of_mem this
      exact ⟨_, .directPassword hc, (WithPassword.direct hc).debug_eq⟩
  | userPass u p =>
    cases p with
    | none => exact ⟨_, .user, by simp [UserinfoRepr.debug, UserinfoRepr.to_user_password, Dbg.opt, UserShown.tree]⟩
    | some p =>
      by_cases hp : p = []
      · subst hp
        exact ⟨_, .empty, by simp [UserinfoRepr.debug, UserinfoRepr.to_user_password, Dbg.opt, UserShown.tree]⟩
      · exact ⟨_, .pair hp, (WithPassword.pair hp).debug_eq⟩

theorem Dbg.opt_str_inj {x y : Option Str} (h : Dbg.opt .str x = Dbg.opt .str y) : x = y := by
  cases x <;> cases y <;> simp_all [Dbg.opt]

theorem Dbg.bool_inj {x y : Bool} (h : Dbg.bool x = Dbg.bool y) : x = y := by
  cases x <;> cases y <;> simp_all [Dbg.bool]

/-- **C57.**  Everything else is shown: builders with the same `Debug` output have the same scheme,
path, query, fragment and normalization flag, agree in having an authority, and the same is shown of
their user information. -/
theorem C57_faithful (b b' : Builder) (h : b.debug = b'.debug) :
    b.scheme = b'.scheme ∧ b.path = b'.path ∧ b.query = b'.query ∧ b.fragment = b'.fragment ∧
    b.normalize = b'.normalize ∧
    match b.authority, b'.authority with
    | none, none => True
    | some a, some a' => ∃ x, Shown a.userinfo x ∧ Shown a'.userinfo x
    | _, _ => False := by
  unfold Builder.debug at h
  simp only [Dbg.node.injEq, List.cons.injEq, Prod.mk.injEq, true_and, and_true] at h
  obtain ⟨h1, h2, h3, h4, h5, h6⟩ := h
  refine ⟨Dbg.opt_str_inj h1, by simpa using h3, Dbg.opt_str_inj h4, Dbg.opt_str_inj h5,
    Dbg.bool_inj h6, ?_⟩
  cases ha : b.authority with
  | none => cases hb : b'.authority <;> simp_all [Dbg.opt]
  | some a =>
    cases hb : b'.authority with
    | none => simp_all [Dbg.opt]
    | some a' =>
      rw [ha, hb] at h2
      simp [Dbg.opt, AuthorityBuilder.debug] at h2
      obtain ⟨_, _, h2⟩ := h2
      obtain ⟨x, hx, ex⟩ := C57_userinfo a.userinfo
      obtain ⟨y, hy, ey⟩ := C57_userinfo a'.userinfo
      rw [ex, ey] at h2
      have : x = y := by
        cases x <;> cases y <;> simp [UserShown.tree] at h2 <;> simp [h2]
      exact ⟨x, hx, this ▸ hy⟩

/-- `mask_password` with options replaces the password by the padding of the empty text. -/
theorem mask_opts_eq (s : Str) (o : FmtOpts) (h : replace_password_with s (fun _ => o.pad []) ≠ none) :
    mask_password_opts s o = replace_password_with s fun _ => o.pad [] := by
  unfold replace_password_with mask_password_opts at *
  cases hr : password_range_to_hide s with
  | none => rfl
  | some r =>
    cases r with
    | none => rfl
    | some r =>
      obtain ⟨st, e⟩ := r
      rw [hr] at h
      simp only [Option.bind_eq_bind, Option.bind_some] at h ⊢
      cases hs : slice s st e with
      | none => rw [hs] at h; exact absurd rfl h
      | some pw => rfl

/-- **C57.**  Whatever the format options, `Display` and `Debug` of `mask_password()` do not depend on
the password, and neither do those of `replace_password(alt)` for an `alt` that does not. -/
theorem C57_mask (S : Spec) (p q : Parts) (hp : p.Valid S) (hq : q.Valid S) (a : AuthParts)
    (user pw pw' : Str) (hw : HasPassword S p a user pw)
    (hw' : HasPassword S q { a with userinfo := some (user ++ ':' :: pw') } user pw')
    (hd : q = { p with authority := q.authority }) (o : FmtOpts) (alt : FmtOpts → Str) :
    mask_password_opts p.recompose o = mask_password_opts q.recompose o ∧
    mask_password_debug p.recompose o = mask_password_debug q.recompose o ∧
    replace_password_opts p.recompose o (fun _ => alt) =
      replace_password_opts q.recompose o (fun _ => alt) ∧
    replace_password_debug p.recompose o (fun _ => alt) =
      replace_password_debug q.recompose o (fun _ => alt) := by
  have h1 := (C25_mask_password S .reference _ (validate_reference_of_parts hp) p ⟨hp, rfl⟩ _ _ _ hw).2.2.2
  have h2 := (C25_mask_password S .reference _ (validate_reference_of_parts hq) q ⟨hq, rfl⟩ _ _ _ hw').2.2.2
  have he : ∀ u, withUserinfo p a u =
      withUserinfo q { a with userinfo := some (user ++ ':' :: pw') } u := by
    intro u
    rw [withUserinfo, withUserinfo, withAuthority, withAuthority, hd]
  have m : mask_password_opts p.recompose o = mask_password_opts q.recompose o := by
    rw [mask_opts_eq _ _ (by rw [h1]; simp), mask_opts_eq _ _ (by rw [h2]; simp), h1, h2, he]
  have r : replace_password_opts p.recompose o (fun _ => alt) =
      replace_password_opts q.recompose o (fun _ => alt) := by
    have e1 : replace_password_opts p.recompose o (fun _ => alt) =
        replace_password_with p.recompose (fun _ => alt o) := rfl
    have e2 : replace_password_opts q.recompose o (fun _ => alt) =
        replace_password_with q.recompose (fun _ => alt o) := rfl
    rw [e1, e2, h1, h2, he]
  refine ⟨m, ?_, r, ?_⟩
  · unfold mask_password_debug
    rw [m]
  · unfold replace_password_debug
    rw [r]

/-- **C57.**  `Debug` of a masked value is its `Display` in angle brackets. -/
theorem C57_mask_debug (s : Str) (o : FmtOpts) (f : Str → FmtOpts → Str) :
    (∀ t, mask_password_opts s o = some t ↔ mask_password_debug s o = some ('<' :: (t ++ ['>']))) ∧
    ∀ t, replace_password_opts s o f = some t ↔
      replace_password_debug s o f = some ('<' :: (t ++ ['>'])) := by
  constructor <;> intro t
  · unfold mask_password_debug
    cases mask_password_opts s o <;> simp
  · unfold replace_password_debug
    cases replace_password_opts s o f <;> simp

example : SameButPassword
    { scheme := some (chars! "http"), authority := some { userinfo := .direct (chars! "me:secret:1") } }
    { scheme := some (chars! "http"), authority := some { userinfo := .userPass (chars! "me") (some (chars! "x")) } } :=
  ⟨_, _, chars! "me", rfl, rfl, .direct (user := chars! "me") (pw := chars! "secret:1") (by decide),
    .pair (by decide), rfl, rfl⟩

example : mask_password_debug (chars! "http://me:secret@h/") {} = some (chars! "<http://me:@h/>") := by
  decide +kernel

/-- The names in the output of a complete value. -/
example : Built.debug ⟨{ scheme := some ['s'], authority := some { host := .ipv4 1 2 3 4, port := .integer 8 }, normalize := true }, true⟩ =
    .node (chars! "Built") [(chars! "builder", .node (chars! "Builder") [
      (chars! "scheme", .node (chars! "Some") [([], .str ['s'])]),
      (chars! "authority", .node (chars! "Some") [([], .node (chars! "AuthorityBuilder") [
        (chars! "host", .node (chars! "IpAddr") [([], .raw (chars! "1.2.3.4"))]),
        (chars! "port", .node (chars! "PortBuilder") [([], .node (chars! "Integer") [([], .raw ['8'])])]),
        (chars! "userinfo", .node (chars! "UserinfoBuilder") [])])]),
      (chars! "path", .str []),
      (chars! "query", .raw (chars! "None")),
      (chars! "fragment", .raw (chars! "None")),
      (chars! "normalize", .raw (chars! "true"))]), (chars! "path_is_absolute", .raw (chars! "true"))] := rfl

example : (AuthorityBuilder.debug { host := .string ['h'], port := .empty, userinfo := .userPass ['u'] none },
    AuthorityBuilder.debug { host := .ipv6 ⟨[0, 0, 0, 0, 0, 0, 0, 1], rfl⟩, port := .string ['8'], userinfo := .userPass ['u'] (some ['p']) },
    Dbg.bool false) =
    (.node (chars! "AuthorityBuilder") [
      (chars! "host", .node (chars! "String") [([], .str ['h'])]),
      (chars! "port", .node (chars! "PortBuilder") [([], .raw (chars! "Empty"))]),
      (chars! "userinfo", .node (chars! "UserinfoBuilder") [(chars! "user", .str ['u']), (chars! "password", .raw (chars! "None"))])],
    .node (chars! "AuthorityBuilder") [
      (chars! "host", .node (chars! "IpAddr") [([], .raw (chars! "::1"))]),
      (chars! "port", .node (chars! "PortBuilder") [([], .node (chars! "String") [([], .str ['8'])])]),
      (chars! "userinfo", .node (chars! "UserinfoBuilder") [(chars! "user", .str ['u']), (chars! "password", .node (chars! "Some") [([], .raw (chars! "{censored}"))])])],
    .raw (chars! "false")) := rfl

/-! ## C58 -/

theorem pad_default (s : Str) : FmtOpts.pad {} s = s := by
  simp [FmtOpts.pad]

/-- What the padding is: the text, cut to the precision, between fill characters, as many as the width asks
for, on the side that the alignment says (text to the left is the default; the odd one goes to the right). -/
theorem C58_padding (o : FmtOpts) (s : Str) : ∃ l r : Nat, ∃ t : Str,
    o.pad s = List.replicate l o.fill ++ t ++ List.replicate r o.fill ∧
    (o.precision = none → t = s) ∧ (∀ n, o.precision = some n → t = s.take n) ∧
    l + t.length + r = max (o.width.getD 0) t.length ∧
    (o.align = none ∨ o.align = some .left → l = 0) ∧ (o.align = some .right → r = 0) ∧
    (o.align = some .center → l ≤ r ∧ r ≤ l + 1) := by
  have key : ∀ t : Str, o.pad s = (match o.align with
      | none | some .left => t ++ List.replicate (o.width.getD 0 - t.length) o.fill
      | some .right => List.replicate (o.width.getD 0 - t.length) o.fill ++ t
      | some .center => List.replicate ((o.width.getD 0 - t.length) / 2) o.fill ++ (t ++
          List.replicate ((o.width.getD 0 - t.length) - (o.width.getD 0 - t.length) / 2) o.fill)) →
      ∃ l r : Nat, o.pad s = List.replicate l o.fill ++ t ++ List.replicate r o.fill ∧
        l + t.length + r = max (o.width.getD 0) t.length ∧
        (o.align = none ∨ o.align = some .left → l = 0) ∧ (o.align = some .right → r = 0) ∧
        (o.align = some .center → l ≤ r ∧ r ≤ l + 1) := by
    intro t h
    rw [h]
    rcases o.align with _ | _ | _ | _ <;> dsimp only
    · exact ⟨0, o.width.getD 0 - t.length, by simp, by omega, by simp, by simp, by simp⟩
    · exact ⟨0, o.width.getD 0 - t.length, by simp, by omega, by simp, by simp, by simp⟩
    · exact ⟨(o.width.getD 0 - t.length) / 2, (o.width.getD 0 - t.length) - (o.width.getD 0 - t.length) / 2,
        by rw [List.append_assoc], by omega, by simp, by simp, fun _ => by omega⟩
    · exact ⟨o.width.getD 0 - t.length, 0, by simp, by omega, by simp, by simp, by simp⟩
  cases hp : o.precision with
  | none =>
    obtain ⟨l, r, h1, h2⟩ := key s (by unfold FmtOpts.pad; rw [hp]; dsimp only; cases o.align with | none => rfl | some x => cases x <;> rfl)
    exact ⟨l, r, s, h1, fun _ => rfl, (by simp), h2⟩
  | some n =>
    obtain ⟨l, r, h1, h2⟩ := key (s.take n) (by unfold FmtOpts.pad; rw [hp]; dsimp only; cases o.align with | none => rfl | some x => cases x <;> rfl)
    exact ⟨l, r, _, h1, (by simp), (by rintro _ ⟨⟩; rfl), h2⟩

theorem pad_nil (o : FmtOpts) : o.pad [] = List.replicate (o.width.getD 0) o.fill := by
  unfold FmtOpts.pad
  cases o.precision <;> cases o.align with
  | none => simp
  | some a =>
    cases a <;> simp
    omega

theorem userinfo_opts_default (S : Spec) (n : Bool) (u : UserinfoRepr) :
    u.writeOpts S {} n = u.write S n := by
  rcases u with _ | u | ⟨u, _ | p⟩ <;> cases n <;>
    simp [UserinfoRepr.writeOpts, UserinfoRepr.write, pctIf, pad_default]

theorem host_opts_default (S : Spec) (n : Bool) (h : HostRepr) : h.writeOpts S {} n = h.write S n := by
  cases h <;> simp [HostRepr.writeOpts, HostRepr.write, pad_default]

/-- The display with options depends on how the authority is displayed with them only. -/
theorem builder_opts_eq {S : Spec} {o : FmtOpts} {b : Builder}
    (h : ∀ a, b.authority = some a → a.writeOpts S o b.normalize = a.write S b.normalize)
    (x : Bool) : b.writeOpts S o x = b.write S x := by
  unfold Builder.writeOpts Builder.write
  cases ha : b.authority with
  | none => cases b.scheme <;> rfl
  | some a =>
    simp only [h a ha]
    cases b.scheme <;> rfl

/-- **C58.**  Without options (`{}`, `to_string()`) the text is the one `Display` is documented to give. -/
theorem C58_default (S : Spec) (b : Built) (s : Str) :
    b.displayOpts S {} = b.display S ∧ mask_password_opts s {} = mask_password s ∧
    ∀ f, replace_password_opts s {} (fun p _ => f p) = replace_password_with s f := by
  refine ⟨builder_opts_eq (fun a _ => ?_) _, ?_, fun _ => rfl⟩
  · unfold AuthorityBuilder.writeOpts AuthorityBuilder.write
    rw [userinfo_opts_default, host_opts_default]
  · unfold mask_password_opts mask_password
    rw [pad_default]
    rcases password_range_to_hide s with _ | _ | ⟨st, e⟩ <;> rfl

/-- **C58** (partial: for settings that do not take options into account, otherwise see
`C58_built_exact_partial` and `C58_built_refuted`).  Format options do not change what a built value
displays. -/
theorem C58_built_partial (S : Spec) (o : FmtOpts) (b : Built) (h : ¬ TakesOptions b.builder) :
    b.displayOpts S o = b.display S := by
  refine builder_opts_eq (fun a ha => ?_) _
  have h1 : ∀ w x y z, a.host ≠ .ipv4 w x y z := fun w x y z e => h ⟨a, ha, .inr ⟨w, x, y, z, e⟩⟩
  have e1 : a.host.writeOpts S o b.builder.normalize = a.host.write S b.builder.normalize := by
    cases hh : a.host with
    | ipv4 w x y z => exact absurd hh (h1 w x y z)
    | string s => rfl
    | ipv6 v => rfl
  have e2 : a.userinfo.writeOpts S o b.builder.normalize = a.userinfo.write S b.builder.normalize := by
    cases hn : b.builder.normalize with
    | true => rcases a.userinfo with _ | u | ⟨u, _ | p⟩ <;> rfl
    | false =>
      rcases hu : a.userinfo with _ | u | ⟨u, _ | p⟩
      · rfl
      · exact absurd ⟨a, ha, .inl ⟨hn, .inl ⟨u, hu⟩⟩⟩ h
      · rfl
      · exact absurd ⟨a, ha, .inl ⟨hn, .inr ⟨u, p, hu⟩⟩⟩ h
  unfold AuthorityBuilder.writeOpts AuthorityBuilder.write
  rw [e1, e2]

/-- **C58** (exact behaviour).  Without normalization, what is displayed with options is what is
displayed without them for the settings with the user information (or the password) and the IPv4
address padded. -/
theorem C58_built_exact_partial (S : Spec) (o : FmtOpts) (b : Builder) (x : Bool)
    (hn : b.normalize = false) :
    Built.displayOpts S o ⟨b, x⟩ = Built.display S ⟨padded o b, x⟩ := by
  unfold Built.displayOpts Built.display Builder.writeOpts Builder.write padded
  have ha : ∀ a : AuthorityBuilder, a.writeOpts S o false = ({ a with
      userinfo := paddedUserinfo o a.userinfo, host := paddedHost o a.host } : AuthorityBuilder).write S false := by
    intro a
    unfold AuthorityBuilder.writeOpts AuthorityBuilder.write
    have e1 : a.userinfo.writeOpts S o false = (paddedUserinfo o a.userinfo).write S false := by
      rcases a.userinfo with _ | u | ⟨u, _ | p⟩ <;> rfl
    have e2 : a.host.writeOpts S o false = (paddedHost o a.host).write S false := by
      cases a.host <;> rfl
    rw [e1, e2]
  cases hb : b.authority with
  | none =>
    simp only [Option.map_none, Builder.writePath, hn, Option.isSome_none]
    cases b.scheme <;> rfl
  | some a =>
    simp only [Option.map_some, Builder.writePath, hn, ha, Option.isSome_some]
    cases b.scheme <;> rfl

/-- **C58** (exact behaviour).  With normalization, an IPv4 address given as an address is still
padded: only its text is replaced. -/
theorem C58_normalized_exact_partial (S : Spec) (o : FmtOpts) (b : Builder) (x : Bool)
    (hn : b.normalize = true) (a : AuthorityBuilder) (ha : b.authority = some a) (i j k l : UInt8)
    (hh : a.host = .ipv4 i j k l) (s : Str) (hs : Built.display S ⟨b, x⟩ = some s) :
    ∃ pre post, s = pre ++ (ipv4Display i.toNat j.toNat k.toNat l.toNat ++ post) ∧
      Built.displayOpts S o ⟨b, x⟩ =
        some (pre ++ (o.pad (ipv4Display i.toNat j.toNat k.toNat l.toNat) ++ post)) := by
  unfold Built.displayOpts Built.display Builder.writeOpts Builder.write at *
  have e2 : a.userinfo.writeOpts S o true = a.userinfo.write S true := by
    rcases a.userinfo with _ | u | ⟨u, _ | p⟩ <;> rfl
  simp only [ha, hn, AuthorityBuilder.write, AuthorityBuilder.writeOpts, e2, hh, HostRepr.write,
    HostRepr.writeOpts, Option.map_some] at hs ⊢
  cases hu : a.userinfo.write S true with
  | none => rw [hu] at hs; cases hs
  | some u =>
    simp only [hu, Option.bind_some, Option.map_some, Option.bind_eq_bind] at hs ⊢
    cases hp : b.writePath S x with
    | none => rw [hp] at hs; cases hs
    | some path =>
      simp only [hp, Option.bind_some] at hs ⊢
      cases hq : writeOpt ['?'] (fun q => if True then normalize_query S q else some q) b.query with
      | none => rw [hq] at hs; cases hs
      | some query =>
        simp only [hq, Option.bind_some] at hs ⊢
        cases hf : writeOpt ['#'] (fun q => if True then normalize_fragment S q else some q) b.fragment with
        | none => rw [hf] at hs; cases hs
        | some frag =>
          simp only [hf, Option.bind_some, Option.some.injEq] at hs ⊢
          subst hs
          refine ⟨(match b.scheme with
              | none => []
              | some s => (if True then normalize_scheme s else s) ++ [':']) ++ ('/' :: '/' :: u),
            a.port.write true ++ (path ++ (query ++ frag)), ?_, ?_⟩
          · cases b.scheme <;> simp
          · cases b.scheme <;> simp

/-- `http://user@h/`, with the user information given as one text. -/
def optionsExample1 : Builder where
  scheme := some (chars! "http")
  authority := some { userinfo := .direct (chars! "user"), host := .string (chars! "h") }
  path := chars! "/"

/-- `http://127.0.0.1/`, normalized. -/
def optionsExample2 : Builder where
  scheme := some (chars! "http")
  authority := some { host := .ipv4 127 0 0 1 }
  path := chars! "/"
  normalize := true

/-- The full claim C58 for built values is false: `format!("{:10}", built)` of `http://user@h/` is not an
IRI, and an IPv4 address is padded and cut also with normalization. -/
theorem C58_built_refuted :
    (∃ b, optionsExample1.build .iri .iri = some (some b) ∧
      b.display .iri = some (chars! "http://user@h/") ∧
      b.displayOpts .iri { width := some 10 } = some (chars! "http://user      @h/") ∧
      validate_uri .iri (chars! "http://user      @h/") = some false) ∧
    ∃ b, optionsExample2.build .iri .iri = some (some b) ∧
      b.display .iri = some (chars! "http://127.0.0.1/") ∧
      b.displayOpts .iri { width := some 12, align := some .right } = some (chars! "http://   127.0.0.1/") ∧
      b.displayOpts .iri { precision := some 3 } = some (chars! "http://127/") :=
  ⟨⟨⟨optionsExample1, true⟩, by decide +kernel, by decide +kernel, by decide +kernel, by decide +kernel⟩,
    ⟨optionsExample2, false⟩, by decide +kernel, by decide +kernel, by decide +kernel, by decide +kernel⟩

/-- **C58** (partial: options without a width; with a width see `C58_mask_exact_partial` and
`C58_mask_refuted`).  What `mask_password()` displays does not depend on the options. -/
theorem C58_mask_partial (s : Str) (o : FmtOpts) (h : o.width = none) :
    mask_password_opts s o = mask_password s := by
  unfold mask_password_opts mask_password
  rw [pad_nil, h]
  rcases password_range_to_hide s with _ | _ | ⟨st, e⟩ <;> rfl

/-- **C58** (exact behaviour).  With a width, as many fill characters are displayed in the place of
the password, or after user information without a colon; without user information the options have no
effect. -/
theorem C58_mask_exact_partial (S : Spec) (s : Str) (p : Parts) (hp : p.Valid S ∧ p.recompose = s)
    (o : FmtOpts) :
    (∀ a user pw, HasPassword S p a user pw → mask_password_opts s o =
      some (withUserinfo p a (user ++ ':' :: List.replicate (o.width.getD 0) o.fill))) ∧
    (∀ a u, AuthParts.Valid S a → p.authority = some a.recompose → a.userinfo = some u → ':' ∉ u →
      mask_password_opts s o = some (withUserinfo p a (u ++ List.replicate (o.width.getD 0) o.fill))) ∧
    ((∀ a : AuthParts, a.Valid S → p.authority = some a.recompose → a.userinfo = none) →
      mask_password_opts s o = some s) := by
  obtain ⟨hv, rfl⟩ := hp
  refine ⟨fun a user pw hw => ?_, fun a u hav ha hu hc => ?_, fun hn => ?_⟩
  · have h := (C25_mask_password S .reference _ (validate_reference_of_parts hv) p ⟨hv, rfl⟩ _ _ _ hw).2.2.2
    rw [mask_opts_eq _ _ (by rw [h]; simp), h, pad_nil]
  · have h := C25_replace_no_colon_partial S _ p ⟨hv, rfl⟩ a ha hav u hu hc (fun _ => o.pad [])
    rw [mask_opts_eq _ _ (by rw [h]; simp), h, pad_nil]
  · have h := C25_replace_no_userinfo_partial S _ p ⟨hv, rfl⟩ hn (fun _ => o.pad [])
    rw [mask_opts_eq _ _ (by rw [h]; simp), h]

/-- The full claim C58 for `mask_password()` is false: `format!("{:4}", iri.mask_password())` is not an
IRI. -/
theorem C58_mask_refuted :
    validate_uri .uri (chars! "http://u:p@h/") = some true ∧
    mask_password_opts (chars! "http://u:p@h/") { width := some 4 } = some (chars! "http://u:    @h/") ∧
    validate_uri .uri (chars! "http://u:    @h/") = some false := by decide +kernel

example : ¬ TakesOptions { scheme := some (chars! "http"), authority := some {
    userinfo := .userPass (chars! "me") none, host := .string (chars! "h"), port := .integer 80 } } := by
  rintro ⟨a, ha, h⟩
  cases ha
  simp at h

end Verif
