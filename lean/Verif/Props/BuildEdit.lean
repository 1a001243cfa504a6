import Verif.Spec.BuildEdit
import Verif.Props.Build
import Verif.Props.HistoryRefine
import Verif.Props.EditEquiv

/-!
# C75: a builder made from a value edits it
-/

namespace Verif

open Rfc BuildSpec

/-- The draft that a builder holds. -/
def draftOf (b : Builder) : Draft := ⟨b.scheme, b.authority.map authParts, b.path, b.query, b.fragment⟩

/-- User names given on their own have no colon. -/
def UsersOk (b : Builder) : Prop := ∀ x, b.authority = some x → UserOk x.userinfo

theorem draftOf_parts (S : Spec) (k : IriKind) (b : Builder) : ((draftOf b).comps S k).parts = parts b := by
  unfold Draft.comps draftOf Comps.parts parts
  simp only [Option.map_map]
  rfl

theorem authority_builder_draft (b : Builder) :
    authParts b.authority_builder = (b.authority.map authParts).getD ⟨none, [], none⟩ := by
  unfold Builder.authority_builder
  cases b.authority <;> rfl

theorem draftOf_set (b : Builder) (op : BuilderOp) : draftOf (b.set op) = (draftOf b).set op := by
  have e := authority_builder_draft b
  cases op <;> simp only [Builder.set, draftOf, Draft.set, Draft.mapAuthority, ← e, Option.map_some] <;> rfl

theorem draftOf_run (b : Builder) (ops : List BuilderOp) : draftOf (b.run ops) = (draftOf b).run ops := by
  unfold Builder.run Draft.run
  induction ops generalizing b with
  | nil => rfl
  | cons op ops ih => simp only [List.foldl_cons]; rw [ih, draftOf_set]

/-- What stays true of the builder. -/
structure PlainBuilder (S : Spec) (b : Builder) : Prop where
  users : UsersOk b
  path : Rfc.path S b.path
  normalize : b.normalize = false

theorem PlainBuilder.set {S : Spec} {b : Builder} (h : PlainBuilder S b) {op : BuilderOp} (ho : PlainOp S op) :
    PlainBuilder S (b.set op) := by
  have hb : UserOk b.authority_builder.userinfo := by
    unfold Builder.authority_builder
    cases hb : b.authority with
    | none => trivial
    | some a => exact h.users a hb
  have key : ∀ x : AuthorityBuilder, UserOk x.userinfo → ∀ b' : Builder, b'.authority = some x → b'.path = b.path →
      b'.normalize = b.normalize → PlainBuilder S b' := by
    intro x hx b' h1 h2 h3
    refine ⟨fun y hy => ?_, by rw [h2]; exact h.path, by rw [h3]; exact h.normalize⟩
    rw [h1] at hy; cases hy; exact hx
  cases op with
  | path v => exact ⟨h.users, ho, h.normalize⟩
  | unset_authority => exact ⟨fun x hx => by simp [Builder.set] at hx, h.path, h.normalize⟩
  | userinfo v =>
    refine key _ ?_ _ rfl rfl rfl
    cases v with
    | userPass u p => exact ho
    | _ => trivial
  | unset_userinfo => exact key { b.authority_builder with userinfo := .absent } trivial _ rfl rfl rfl
  | host v => exact key { b.authority_builder with host := .string v } hb _ rfl rfl rfl
  | ip_address_v4 p q r s => exact key { b.authority_builder with host := .ipv4 p q r s } hb _ rfl rfl rfl
  | ip_address_v6 p => exact key { b.authority_builder with host := .ipv6 p } hb _ rfl rfl rfl
  | port v => exact key { b.authority_builder with port := v } hb _ rfl rfl rfl
  | unset_port => exact key { b.authority_builder with port := .empty } hb _ rfl rfl rfl
  | normalize => exact ho.elim
  | unset_normalize => exact ⟨h.users, h.path, rfl⟩
  | _ => exact ⟨h.users, h.path, h.normalize⟩

theorem PlainBuilder.run {S : Spec} {b : Builder} (h : PlainBuilder S b) {ops : List BuilderOp}
    (ho : ∀ op ∈ ops, PlainOp S op) : PlainBuilder S (b.run ops) := by
  unfold Builder.run
  induction ops generalizing b with
  | nil => exact h
  | cons op ops ih =>
    exact ih (h.set (ho op (by simp))) fun o hm => ho o (by simp [hm])

/-- A plain builder is acceptable if and only if its components make a value. -/
theorem PlainBuilder.acceptable_iff {S : Spec} {b : Builder} (h : PlainBuilder S b) (k : IriKind) :
    Acceptable S k b ↔ (draftOf b).Fits S k := by
  constructor
  · intro ha
    refine ⟨⟨?_, ?_, ?_⟩, ?_⟩
    · rw [draftOf_parts]
      exact parts_valid ha h.path fun e => ha.withoutAuthority e h.normalize
    · intro x hx
      simp only [Draft.comps, draftOf, Option.map_eq_some_iff] at hx
      obtain ⟨y, hy, rfl⟩ := hx
      exact (ha.authority y hy).1
    · have := ha.kind
      cases k with
      | reference => trivial
      | iri => exact this
      | absolute => exact ⟨this.1, .inl this.2⟩
      | relative => exact this
    · rintro rfl
      exact ha.kind.2
  · rintro ⟨hv, hf⟩
    have hp := hv.parts
    rw [draftOf_parts] at hp
    have e1 : ∀ {o : Option AuthorityBuilder}, b.authority = o → (parts b).authority = o.map fun a => (authParts a).recompose := by
      rintro _ rfl; rfl
    refine ⟨?_, hp.scheme, ?_, ?_, ?_, ?_, hp.query, hp.fragment⟩
    · have := hv.kind
      cases k with
      | reference => trivial
      | iri => exact this
      | absolute => exact ⟨this.1, hf rfl⟩
      | relative => exact this
    · intro x hx
      exact ⟨hv.authority _ (by simp [Draft.comps, draftOf, hx]), h.users x hx⟩
    · intro hn
      exact hp.withAuthority (by rw [e1 rfl]; simpa using hn)
    · intro hn _
      exact hp.withoutAuthority (by rw [e1 hn]; rfl)
    · intro hs hn
      exact hp.withoutScheme hs (by rw [e1 hn]; rfl)

/-- The builder made from a value. -/
theorem from_iri_draft {a : Comps} (h : a.Valid) :
    ∃ b, Builder.from_iri a.val.text = some b ∧ draftOf b = .of a ∧ PlainBuilder a.spec b := by
  obtain ⟨b, b1, b2, b3, b4⟩ := builder_from_iri h.parts
  have hacc := b4 .reference trivial
  refine ⟨b, b1, ?_, ⟨fun x hx => (hacc.authority x hx).2, ?_, b3⟩⟩
  · have e : ∀ f : Parts → Option Str, f (parts b) = f a.parts := fun f => by rw [b2]
    have e1 : b.scheme = a.scheme := e Parts.scheme
    have e2 : b.path = a.path := congrArg Parts.path b2
    have e3 : b.query = a.query := e Parts.query
    have e4 : b.fragment = a.fragment := e Parts.fragment
    have e5 : b.authority.map authParts = a.authority := by
      have h5 : b.authority.map (fun x => (authParts x).recompose) = a.authority.map AuthParts.recompose :=
        e Parts.authority
      cases hb : b.authority with
      | none =>
        cases ha : a.authority with
        | none => rfl
        | some y => simp [hb, ha] at h5
      | some x =>
        cases ha : a.authority with
        | none => simp [hb, ha] at h5
        | some y =>
          simp only [hb, ha, Option.map_some, Option.some.injEq] at h5
          simp only [Option.map_some]
          rw [auth_recompose_inj (hacc.authority x hb).1 (h.authority y ha) h5]
    unfold draftOf Draft.of
    rw [e1, e2, e3, e4, e5]
  · have e2 : b.path = a.path := congrArg Parts.path b2
    rw [e2]
    exact h.parts.path

/-- **C75**: a builder made from a value, after any sequence of setters, builds a value of any type exactly if the
components of the old value with the changes that the setters make are the components of such a value, and then it
displays that value. -/
theorem C75_edits (S : Spec) (k k' : IriKind) (t : Str) (a : Comps) (ha : a.Valid) (e : a.val = ⟨S, k, t⟩)
    (ops : List BuilderOp) (ho : ∀ op ∈ ops, PlainOp S op) :
    ∃ b, Builder.from_iri t = some b ∧
      (((Draft.of a).run ops).Fits S k' → ∃ B, (b.run ops).build S k' = some (some B) ∧
        B.display S = some (((Draft.of a).run ops).comps S k').val.text) ∧
      (¬ ((Draft.of a).run ops).Fits S k' → (b.run ops).build S k' = some none) := by
  have hs : a.spec = S := congrArg Val.spec e
  have ht : a.val.text = t := congrArg Val.text e
  obtain ⟨b, b1, b2, b3⟩ := from_iri_draft ha
  rw [ht] at b1
  rw [hs] at b3
  have hp := b3.run ho
  obtain ⟨r1, r2⟩ := C28_build_raw S k' (b.run ops) hp.normalize
  rw [hp.acceptable_iff, draftOf_run, b2] at r1 r2
  refine ⟨b, b1, fun hf => ?_, r2⟩
  obtain ⟨B, B1, B2⟩ := r1 hf
  refine ⟨B, B1, ?_⟩
  rw [B2, ← draftOf_parts S k', draftOf_run, b2]
  rfl

/-- **C75**: with `normalize` at the end the builder displays the normal form (for values with a scheme; for the others
see C30). -/
theorem C75_normalize (S : Spec) (k k' : IriKind) (t : Str) (a : Comps) (ha : a.Valid) (e : a.val = ⟨S, k, t⟩)
    (ops : List BuilderOp) (ho : ∀ op ∈ ops, PlainOp S op) (hf : ((Draft.of a).run ops).Fits S k')
    (hs : ((Draft.of a).run ops).scheme ≠ none) :
    ∃ b B u, Builder.from_iri t = some b ∧ (b.run (ops ++ [.normalize])).build S k' = some (some B) ∧
      normalize S (((Draft.of a).run ops).comps S k').val.text = some u ∧ B.display S = some u := by
  have hS : a.spec = S := congrArg Val.spec e
  have ht : a.val.text = t := congrArg Val.text e
  obtain ⟨b, b1, b2, b3⟩ := from_iri_draft ha
  rw [ht] at b1
  rw [hS] at b3
  have hp := b3.run ho
  have hacc := (hp.acceptable_iff k').2 (by rw [draftOf_run, b2]; exact hf)
  obtain ⟨B, B1, B2⟩ := (C28_build_raw S k' (b.run ops) hp.normalize).1 hacc
  have hsch : (b.run ops).scheme ≠ none := by
    have : (b.run ops).scheme = ((Draft.of a).run ops).scheme := by
      rw [← b2, ← draftOf_run]; rfl
    rw [this]; exact hs
  obtain ⟨B', s, c1, c2, c3, c4⟩ := C30_equals_normalize S k' (b.run ops) hp.normalize hsch hp.path B B1
  obtain ⟨u, hu⟩ := Option.isSome_iff_exists.1 c4
  have es : s = (((Draft.of a).run ops).comps S k').val.text := by
    have := c2.symm.trans B2
    simp only [Option.some.injEq] at this
    rw [this, ← draftOf_parts S k', draftOf_run, b2]
    rfl
  refine ⟨b, B', u, b1, ?_, by rw [← es]; exact hu, by rw [c3, hu]⟩
  rw [← c1]
  congr 1
  simp [Builder.run, List.foldl_append]

theorem SameEdit.plain {a : Comps} {c : Call} {ops : List BuilderOp} (h : SameEdit a c ops) :
    ∀ op ∈ ops, PlainOp a.spec op := by
  intro op ho
  cases h <;> simp only [List.mem_singleton, List.not_mem_nil] at ho <;> subst ho <;>
    first | trivial | assumption

theorem SameEdit.allowed {a : Comps} {c : Call} {ops : List BuilderOp} (h : SameEdit a c ops) : Allowed false c a := by
  cases h with
  | set_fragment f _ hf => rintro x ⟨⟩; exact hf
  | remove_fragment => rintro x ⟨⟩
  | remove_password x user pw h1 h2 h3 =>
    intro y u hy hu
    rw [h1] at hy; cases hy
    rw [h2] at hu; cases hu
    simp
  | replace_host => rintro ⟨⟩
  | _ => trivial

theorem SameEdit.effect {a b : Comps} {c : Call} {ops : List BuilderOp} (h : SameEdit a c ops) (he : Effect c a b) :
    b = ((Draft.of a).run ops).comps a.spec b.kind ∧ (b.kind = .absolute → a.kind = .absolute ∨ b.fragment = none) := by
  have key : ∀ {x : AuthParts} {user pw : Str} {f : Str → Str}, a.authority = some x →
      x.userinfo = some (user ++ ':' :: pw) → ':' ∉ user →
      a.mapUserinfo (mapPassword f) = { a with authority := some { x with userinfo := some (f user) } } := by
    intro x user pw f h1 h2 h3
    unfold Comps.mapUserinfo
    rw [h1]
    simp [h2, mapPassword_eq h3]
  cases h with
  | set_fragment f hk hf =>
    have he : b = if a.kind = .absolute then a else { a with fragment := some f } := he
    rw [if_neg hk] at he
    subst he
    exact ⟨rfl, fun e => (hk e).elim⟩
  | remove_fragment hk =>
    have he : b = if a.kind = .absolute then a else { a with fragment := none } := he
    rw [if_neg hk] at he
    subst he
    exact ⟨rfl, fun e => (hk e).elim⟩
  | replace_host h h1 h2 =>
    obtain rfl := he.1 h2
    refine ⟨?_, .inl⟩
    cases ha : a.authority with
    | none => exact (h1 ha).elim
    | some x =>
      simp [Comps.withHost, Draft.run, Draft.set, Draft.mapAuthority, Draft.of, Draft.comps, ha]
  | remove_password x user pw h1 h2 h3 =>
    have he : b = a.mapUserinfo (mapPassword fun user => user) := he
    rw [key h1 h2 h3] at he
    subst he
    exact ⟨by simp [Draft.run, Draft.set, Draft.mapAuthority, Draft.of, Draft.comps, h1, userinfoText], .inl⟩
  | remove_nonempty_password x user pw h1 h2 h3 =>
    have he : b = a.mapUserinfo (mapPassword fun user => user ++ [':']) := he
    rw [key h1 h2 h3] at he
    subst he
    exact ⟨by simp [Draft.run, Draft.set, Draft.mapAuthority, Draft.of, Draft.comps, h1, userinfoText], .inl⟩
  | mask_password x user pw h1 h2 h3 =>
    have he : b = a.mapUserinfo (mapPassword fun user => user ++ [':']) := he
    rw [key h1 h2 h3] at he
    subst he
    exact ⟨by simp [Draft.run, Draft.set, Draft.mapAuthority, Draft.of, Draft.comps, h1, userinfoText], .inl⟩
  | into_absolute hk =>
    have he : b = if a.kind = .iri then { a with kind := .absolute, fragment := none } else a := he
    rw [if_pos hk] at he
    subst he
    exact ⟨rfl, fun _ => .inr rfl⟩
  | into_reference =>
    have he : b = { a with kind := .reference } := he
    subst he
    exact ⟨rfl, by rintro ⟨⟩⟩

/-- **C75**: the methods of owned values and the builder make the same changes: where a method and a sequence of setters
are the same edit, the method succeeds and the builder displays what the method leaves.  (An absolute IRI has no
fragment, see C04.) -/
theorem C75_agrees (S : Spec) (k : IriKind) (t : Str) (a : Comps) (ha : a.Valid) (e : a.val = ⟨S, k, t⟩)
    (hk : k = .absolute → a.fragment = none) (c : Call) (ops : List BuilderOp) (h : SameEdit a c ops) :
    ∃ k' t' b B, (⟨S, k, t⟩ : Val).step false c = some ⟨S, k', t'⟩ ∧ Builder.from_iri t = some b ∧
      (b.run ops).build S k' = some (some B) ∧ B.display S = some t' := by
  obtain ⟨x, x1, x2, x3, -⟩ := C66_step false a ha c (SameEdit.allowed h)
  obtain ⟨h1, h2⟩ := SameEdit.effect h x2
  have hs : a.spec = S := congrArg Val.spec e
  have hk' : a.kind = k := congrArg Val.kind e
  obtain ⟨b, b1, b2, -⟩ := C75_edits S k x.kind t a ha e ops (by rw [← hs]; exact SameEdit.plain h)
  rw [hs] at h1
  have hf : ((Draft.of a).run ops).Fits S x.kind := by
    refine ⟨by rw [← h1]; exact x1, fun hx => ?_⟩
    have e1 : ((Draft.of a).run ops).fragment = x.fragment := by rw [h1]; rfl
    rw [e1]
    rcases h2 hx with h2 | h2
    · have hfa := hk (hk'.symm.trans h2)
      have e2 : x.fragment = a.fragment := by
        rw [h1]
        cases h <;> first | rfl | (rename_i hn _; exact (hn h2).elim) | (rename_i hn; exact (hn h2).elim) |
          (rename_i hn; rw [h2] at hn; cases hn)
      rw [e2, hfa]
    · exact h2
  obtain ⟨B, B1, B2⟩ := b2 hf
  have hsx : x.spec = S := by rw [h1]; rfl
  refine ⟨x.kind, x.val.text, b, B, ?_, b1, B1, by rw [B2, ← h1]⟩
  rw [← e, x3]
  simp [Comps.val, hsx]

/-! ## Concrete cases -/

/-- `from` then the setters, then `build`. -/
def rebuilt (S : Spec) (k' : IriKind) (t : Str) (ops : List BuilderOp) : Option (Option (Option Str)) :=
  (Builder.from_iri t).bind fun b => ((b.run ops).build S k').map fun o => o.map fun B => B.display S

example : rebuilt .uri .iri (chars! "http://u:p@h:8/a?q#f") [.host (chars! "new.example"), .unset_port, .unset_query,
    .userinfo (.userPass (chars! "v") none)] = some (some (some (chars! "http://v@new.example/a#f"))) := by
  decide +kernel
example : rebuilt .uri .absolute (chars! "http://u:p@h:8/a?q#f") [.host (chars! "new")] = some none := by
  decide +kernel
example : rebuilt .uri .relative (chars! "http://h/a?q#f") [.unset_scheme, .unset_authority, .path (chars! "a:b")] =
    some none := by decide +kernel
example : rebuilt .uri .relative (chars! "http://h/a?q#f") [.unset_scheme, .unset_authority, .path (chars! "./a:b")] =
    some (some (some (chars! "./a:b?q#f"))) := by decide +kernel

/-- The components of the value used in the examples. -/
def c75Comps : Comps :=
  ⟨.uri, .iri, some (chars! "HTTP"), some ⟨some (chars! "u:p"), chars! "h", some (chars! "8")⟩, chars! "/a/../b", none,
    some (chars! "f")⟩

theorem c75Comps_valid : c75Comps.Valid ∧ c75Comps.val = ⟨.uri, .iri, chars! "HTTP://u:p@h:8/a/../b#f"⟩ := by
  have ho : (⟨some (chars! "u:p"), chars! "h", some (chars! "8")⟩ : AuthParts).Valid .uri :=
    ⟨by rintro u ⟨⟩; exact (validate_userinfo_iff _ _).2 (by decide +kernel), (C06_host _ _).1 (by decide +kernel),
      by rintro u ⟨⟩; exact (C05_port _).1 (by decide +kernel)⟩
  refine ⟨⟨⟨?_, ?_, (C05_path _ _).1 (by decide +kernel), ?_, ?_, ?_, ?_, ?_⟩, ?_, nofun⟩, by decide +kernel⟩
  · rintro u ⟨⟩; exact (C05_scheme _).1 (by decide +kernel)
  · rintro u ⟨⟩; exact (C06_authority _ _).1 (by decide +kernel)
  · rintro u ⟨⟩
  · rintro u ⟨⟩; exact (C05_fragment _ _).1 (by decide +kernel)
  · exact fun _ => .inr ⟨_, rfl⟩
  · rintro ⟨⟩
  · rintro ⟨⟩
  · rintro x ⟨⟩; exact ho

/-- The hypotheses of `C75_agrees` hold there: removing the password by the method and by the builder. -/
example : ∃ k' t' b B, (⟨.uri, .iri, chars! "HTTP://u:p@h:8/a/../b#f"⟩ : Val).step false .remove_password_inline =
      some ⟨.uri, k', t'⟩ ∧ Builder.from_iri (chars! "HTTP://u:p@h:8/a/../b#f") = some b ∧
    (b.run [.userinfo (.userPass (chars! "u") none)]).build .uri k' = some (some B) ∧ B.display .uri = some t' :=
  C75_agrees .uri .iri _ c75Comps c75Comps_valid.1 c75Comps_valid.2 nofun _ _
    (.remove_password _ (chars! "u") (chars! "p") rfl rfl (by decide))

example : (⟨.uri, .iri, chars! "HTTP://u:p@h:8/a/../b#f"⟩ : Val).step false .remove_password_inline =
      some ⟨.uri, .iri, chars! "HTTP://u@h:8/a/../b#f"⟩ ∧
    rebuilt .uri .iri (chars! "HTTP://u:p@h:8/a/../b#f") [.userinfo (.userPass (chars! "u") none)] =
      some (some (some (chars! "HTTP://u@h:8/a/../b#f"))) := by decide +kernel

/-- And those of `C75_normalize`. -/
example : ∃ b B u, Builder.from_iri (chars! "HTTP://u:p@h:8/a/../b#f") = some b ∧
    (b.run ([] ++ [.normalize])).build .uri .iri = some (some B) ∧
    normalize .uri (((Draft.of c75Comps).run []).comps .uri .iri).val.text = some u ∧ B.display .uri = some u :=
  C75_normalize .uri .iri .iri _ c75Comps c75Comps_valid.1 c75Comps_valid.2 [] (by simp)
    ⟨c75Comps_valid.1, nofun⟩ nofun

example : rebuilt .uri .iri (chars! "HTTP://u:p@h:8/a/../b#f") [.normalize] =
    some (some (some (chars! "http://u:p@h:8/b#f"))) := by decide +kernel

end Verif
