import Verif.Props.Build
import Verif.Props.Convert
import Verif.Props.NormalizeAuthority
import Verif.Props.TemplateRead
import Verif.Lemmas.TemplateNaive
import Verif.Lemmas.Commute
import Verif.Spec.RoundTrip

/-!
# C70: data through the crate and back
-/

namespace Verif

open Rfc BuildSpec RoundTrip

/-! ## Encoded texts are normal -/

theorem ctxC_unreserved {S : Spec} {ctx : Context} {c : Char} (h : iunreserved S c = true) :
    ctxC S ctx c = true := by
  have hc : c ≠ ':' := by rintro rfl; cases S <;> revert h <;> decide
  cases ctx <;> simp [ctxC, h, hc, userinfoC, regnameC, pcharC, pcharSlashC, queryC, fragC]

theorem keep_char {S : Spec} {c : Char} (h : iunreserved S c = false) {r t : List Tok} (hr : PctNorm S r t) :
    PctNorm S ((utf8 c).map .pct ++ r) ((utf8 c).map .pct ++ t) := by
  obtain ⟨b, x, e, hx, hb⟩ := utf8_shape c
  rw [e, List.map_cons, List.cons_append, List.cons_append]
  refine .keep ?_ (hr.conts hx)
  intro d r' hd he
  obtain ⟨b', x', e', hx', hb'⟩ := utf8_shape d
  have hl : (utf8 c).length = (utf8 d).length := by
    have : b = b' := by rw [e'] at he; simp at he; exact he.1
    rw [e, e']; simp; omega
  have he2 : (utf8 c).map Tok.pct ++ r = (utf8 d).map .pct ++ r' := by rw [e]; exact he
  obtain ⟨h3, _⟩ := List.append_inj he2 (by simpa using hl)
  have := utf8_inj (map_pct_inj h3)
  rw [this, hd] at h
  cases h

theorem encode_tokens (S : Spec) (ctx : Context) (s : Str) :
    tokens (percent_encode S ctx [s]) =
      s.flatMap fun c => if ctxC S ctx c then [.ch c] else (utf8 c).map .pct := by
  rw [percent_encode_flatten]
  simp only [List.flatten_cons, List.flatten_nil, List.append_nil]
  induction s with
  | nil => simp [tokens_nil]
  | cons c s ih =>
    rw [List.flatMap_cons, List.flatMap_cons, ← ih]
    unfold encWriteChar
    rw [isValidChar_eq]
    split
    · rename_i h
      have : c ≠ '%' := by rintro rfl; rw [ctxC_pct] at h; cases h
      exact tokens_ch this _
    · rw [tokens_append_ch (write_pct_wf c)]
      congr 1
      unfold write_pct_encoded_char
      rw [utf8_bytes_pcts_render]
      refine tokens_render fun t ht => ?_
      obtain ⟨b, hb, rfl⟩ := List.mem_map.1 ht
      exact utf8_lt c b hb

theorem encode_wf (S : Spec) (ctx : Context) (s : Str) : WF (percent_encode S ctx [s]) :=
  ((encodingRule_iff S ctx _).1 (C22_encode S ctx [s]).1).wf

theorem encode_norm (S : Spec) (ctx : Context) (s : Str) :
    PctNorm S (tokens (percent_encode S ctx [s])) (tokens (percent_encode S ctx [s])) := by
  rw [encode_tokens]
  induction s with
  | nil => exact .nil
  | cons c s ih =>
    rw [List.flatMap_cons]
    split
    · exact .ch ih
    · rename_i h
      refine keep_char ?_ ih
      cases hu : iunreserved S c with
      | false => rfl
      | true => exact absurd (ctxC_unreserved hu) h

theorem encode_render (S : Spec) (ctx : Context) (s : Str) :
    render (tokens (percent_encode S ctx [s])) = percent_encode S ctx [s] := by
  rw [encode_tokens, percent_encode_flatten]
  simp only [List.flatten_cons, List.flatten_nil, List.append_nil]
  induction s with
  | nil => rfl
  | cons c s ih =>
    rw [List.flatMap_cons, List.flatMap_cons, render_append, ih]
    congr 1
    unfold encWriteChar
    rw [isValidChar_eq]
    split
    · rfl
    · exact (utf8_bytes_pcts_render c).symm

/-- **C22.**  Encoded texts are already in percent-encoding normal form: nothing in them is to be decoded, and
the digits are upper case. -/
theorem C22_normal (S : Spec) (ctx : Context) (chunks : List Str) :
    PctNormText S (percent_encode S ctx chunks) (percent_encode S ctx chunks) := by
  rw [(C22_encode S ctx chunks).2.2]
  exact ⟨_, encode_norm S ctx _, (encode_render S ctx _).symm⟩

example : percent_encode .iri .query [chars! "ä é|"] = chars! "ä%20é%7C" := by decide +kernel

theorem encode_pctn (S : Spec) (ctx : Context) (s : Str) :
    pctn S (percent_encode S ctx [s]) = percent_encode S ctx [s] := by
  rw [pctn_eq (encode_wf S ctx s) (encode_norm S ctx s), encode_render]

/-! ## Reading -/

/-- A text is read as another. -/
def Dec (x s : Str) : Prop := WF x ∧ pctDecode x = utf8s s

theorem Dec.decode {x s : Str} (h : Dec x s) : RoundTrip.decode x = some s := by
  unfold RoundTrip.decode
  rw [decode_wf h.1 h.2]; rfl

theorem dec_encode (S : Spec) (ctx : Context) (s : Str) : Dec (percent_encode S ctx [s]) s :=
  ⟨encode_wf S ctx s, by simpa using (C22_encode S ctx [s]).2.1⟩

theorem Dec.map {x s : Str} (h : Dec x s) : Dec (mapToUri x) s :=
  ⟨mapToUri_WF h.1, by rw [mapToUri_wf_decode h.1, h.2]⟩

/-- User information as text and as data. -/
def UserDec : Option Str → Option (Str × Option Str) → Prop
  | none, none => True
  | some x, some (u, none) => ':' ∉ x ∧ Dec x u
  | some x, some (u, some p) => ∃ y z, x = y ++ ':' :: z ∧ ':' ∉ y ∧ ':' ∉ z ∧ Dec y u ∧ Dec z p
  | _, _ => False

theorem UserDec.read {x : Option Str} {d : Option (Str × Option Str)} (h : UserDec x d) :
    RoundTrip.opt readUser x = some d := by
  match x, d, h with
  | none, none, _ => rfl
  | some x, some (u, none), ⟨h1, h2⟩ =>
    unfold RoundTrip.opt readUser
    simp only [splitAt_none h1, h2.decode]; rfl
  | some x, some (u, some p), ⟨y, z, h1, h2, h3, h4, h5⟩ =>
    unfold RoundTrip.opt readUser
    subst h1
    simp only [splitAt_cons h2, splitAt_none h3, h4.decode, h5.decode]; rfl

/-- Optional texts. -/
def OptDec : Option Str → Option Str → Prop
  | none, none => True
  | some x, some s => Dec x s
  | _, _ => False

theorem OptDec.read {x s : Option Str} (h : OptDec x s) : RoundTrip.opt RoundTrip.decode x = some s := by
  match x, s, h with
  | none, none, _ => rfl
  | some x, some s, h =>
    unfold RoundTrip.opt
    simp only
    rw [Dec.decode h]; rfl

theorem read_port (n : UInt16) : readPort (Verif.decimal n.toNat) = some n := by
  obtain ⟨h1, h2, h3, _⟩ := Verif.Tpl.isDecimal_toDigits n.toNat
  unfold readPort Verif.decimal
  rw [if_pos ⟨h1, h2, by rw [h3]; exact n.toNat_lt⟩, h3]
  simp

theorem opt_read_port (n : Option UInt16) :
    RoundTrip.opt readPort (n.map fun n => Verif.decimal n.toNat) = some n := by
  cases n with
  | none => rfl
  | some n =>
    unfold RoundTrip.opt
    simp only [Option.map_some, read_port]

/-- An authority as text and as data. -/
structure AuthDec (S : Spec) (a : AuthParts) (r : RawAuthority) : Prop where
  valid : a.Valid S
  user : UserDec a.userinfo r.user
  host : Dec a.host r.host
  port : RoundTrip.opt readPort a.port = some r.port

theorem AuthDec.read {S : Spec} {a : AuthParts} {r : RawAuthority} (h : AuthDec S a r) :
    readAuthority (decompose_authority a.recompose) = some r := by
  unfold readAuthority
  rw [decompose_authority_eq h.valid, offsets_userinfo, offsets_host, offsets_port]
  simp only [bind, Option.bind, h.user.read, h.host.decode, h.port]

/-- A path as text and as data. -/
inductive PathDec : Str → List Str → Prop
  | nil : PathDec [] []
  | cons {x s r l} : '/' ∉ x → Dec x s → PathDec r l → PathDec ('/' :: (x ++ r)) (s :: l)

theorem PathDec.split {r : Str} {l : List Str} (h : PathDec r l) :
    ∃ xs : List Str, (∀ a : Str, '/' ∉ a → Rfc6570.splitAt '/' (a ++ r) = a :: xs) ∧
      RoundTrip.all RoundTrip.decode xs = some l := by
  induction h with
  | nil => exact ⟨[], fun a ha => by rw [List.append_nil, splitAt_none ha], rfl⟩
  | @cons x s r l h1 h2 _ ih =>
    obtain ⟨xs, h3, h4⟩ := ih
    refine ⟨x :: xs, fun a ha => by rw [splitAt_cons ha, h3 x h1], ?_⟩
    unfold RoundTrip.all
    rw [h2.decode, h4]; rfl

theorem PathDec.read {r : Str} {l : List Str} (h : PathDec r l) :
    readPath r = some l := by
  obtain ⟨xs, h1, h2⟩ := h.split
  have := h1 [] (by simp)
  rw [List.nil_append] at this
  unfold readPath
  rw [this]; exact h2

/-- A reference as text and as data. -/
structure PartsDec (S : Spec) (p : Parts) (r : Raw) : Prop where
  valid : p.Valid S
  scheme : p.scheme = r.scheme
  noAuthority : r.authority = none → p.authority = none
  authority : ∀ d, r.authority = some d → ∃ a : AuthParts, p.authority = some a.recompose ∧ AuthDec S a d
  path : PathDec p.path r.segments
  query : OptDec p.query r.query
  fragment : OptDec p.fragment r.fragment

theorem PartsDec.read {S : Spec} {p : Parts} {r : Raw} (h : PartsDec S p r) :
    RoundTrip.read p.recompose = some r := by
  have hd := h.valid.delim
  have e1 : RoundTrip.opt readAuthority (RiReferenceStr.authority_components p.recompose) = some r.authority := by
    simp only [RiReferenceStr.authority_components, AuthorityComponents.from_iri, hd.extract_authority_eq]
    cases hr : r.authority with
    | none => rw [h.noAuthority hr]; rfl
    | some d =>
      obtain ⟨a, ha, hA⟩ := h.authority d hr
      rw [ha]
      unfold RoundTrip.opt
      simp only [Option.map_some, hA.read]
  unfold RoundTrip.read
  simp only [RiReferenceStr.path_str, hd.extract_path_eq, RiReferenceStr.query_str, hd.extract_query_eq,
    RiReferenceStr.fragment_str, hd.extract_fragment_eq, RiReferenceStr.scheme_str, hd.extract_scheme_eq, e1,
    h.path.read, h.query.read, h.fragment.read, h.scheme, bind, Option.bind]

/-! ## Writing -/

theorem flatMap_pathDec {f : Str → Str} {l : List Str} (h : ∀ s ∈ l, '/' ∉ f s ∧ Dec (f s) s) :
    PathDec (l.flatMap fun s => '/' :: f s) l := by
  induction l with
  | nil => exact .nil
  | cons s l ih =>
    have := h s (by simp)
    exact .cons this.1 this.2 (ih fun s hs => h s (by simp [hs]))

theorem seg_no_slash (S : Spec) (s : Str) : '/' ∉ from_path_segment S [s] :=
  ((encodingRule_iff S .pathSegment _).1 (C22_encode S .pathSegment [s]).1).not_mem (by decide) (by decide)
    (by cases S <;> decide)

theorem seg_path (S : Spec) (l : List Str) : Rfc.path S (l.flatMap fun s => '/' :: from_path_segment S [s]) := by
  rw [path_iff]
  induction l with
  | nil => exact .nil
  | cons s l ih =>
    rw [List.flatMap_cons, List.cons_append]
    refine .chr (by decide) (pcharSlashC_slash S) (PC.append ?_ ih)
    exact ((encodingRule_iff S .pathSegment _).1 (C22_encode S .pathSegment [s]).1).mono
      fun c hc => by simp [pcharSlashC]; exact .inl hc

theorem encode_empty {S : Spec} {ctx : Context} {s : Str} : percent_encode S ctx [s] = [] ↔ s = [] := by
  constructor
  · intro h
    have := (dec_encode S ctx s).2
    rw [h] at this
    exact (utf8s_inj (a := s) (b := []) this.symm)
  · rintro rfl; rfl

theorem seg_dslash {S : Spec} {l : List Str} :
    (∃ r, (l.flatMap fun s => '/' :: from_path_segment S [s]) = '/' :: '/' :: r) ↔ ∃ s m, l = [] :: s :: m := by
  constructor
  · rintro ⟨r, h⟩
    match l, h with
    | [s], h =>
      simp at h
      have := seg_no_slash S s
      rw [h] at this; simp at this
    | s :: t :: m, h =>
      simp only [List.flatMap_cons, List.cons_append] at h
      have h := (List.cons.inj h).2
      have hs : from_path_segment S [s] = [] := by
        cases hx : from_path_segment S [s] with
        | nil => rfl
        | cons c x =>
          rw [hx] at h
          have hc := seg_no_slash S s
          rw [hx] at hc
          have := (List.cons.inj h).1
          subst this; simp at hc
      exact ⟨t, m, by rw [encode_empty.1 hs]⟩
  · rintro ⟨s, m, rfl⟩
    exact ⟨_, rfl⟩

theorem user_dec (S : Spec) (u : Option (Str × Option Str)) :
    UserDec (userinfoText (writeUser S u)) u ∧ UserOk (writeUser S u) ∧
      ∀ x, userinfoText (writeUser S u) = some x → Rfc.userinfo S x := by
  have hc := fun x => C22_constructors S x
  match u with
  | none => exact ⟨trivial, trivial, by intro x hx; cases hx⟩
  | some (u, none) =>
    refine ⟨⟨(hc u).2.1.2, dec_encode S .userOrPassword u⟩, (hc u).2.1.2, ?_⟩
    intro x hx; cases hx; exact (hc u).2.1.1
  | some (u, some p) =>
    refine ⟨⟨_, _, rfl, (hc u).2.1.2, (hc p).2.2.1.2, dec_encode S .userOrPassword u,
      dec_encode S .userOrPassword p⟩, (hc u).2.1.2, ?_⟩
    intro x hx
    have : x = from_user S [u] ++ ':' :: from_password S [p] := (Option.some.inj hx).symm
    rw [this, userinfo_iff]
    refine PC.append ((userinfo_iff S _).1 (hc u).2.1.1) (.chr (by decide) (by cases S <;> decide)
      ((userinfo_iff S _).1 (hc p).2.2.1.1))

/-- The authority that the writer sets. -/
theorem auth_dec (S : Spec) (d : RawAuthority) : ∀ b, (builder S ⟨none, some d, [], none, none⟩).authority = some b →
    AuthDec S (authParts b) d ∧ UserOk b.userinfo := by
  obtain ⟨u, h, p⟩ := d
  intro b hb
  obtain ⟨h2, h3, h4⟩ := user_dec S u
  cases hb
  refine ⟨⟨⟨h4, .inr (.inr (C22_constructors S h).1), ?_⟩, h2, dec_encode S .regName h, ?_⟩, h3⟩
  · intro x hx
    cases p with
    | none => cases hx
    | some n =>
      cases hx
      rw [port_iff, List.all_eq_true]
      exact decimal_digits _
  · cases p with
    | none => rfl
    | some n => exact opt_read_port (some n)

theorem builder_acceptable (S : Spec) (k : IriKind) (r : Raw) :
    Acceptable S k (builder S r) ↔ Transportable k r := by
  have hpath : (builder S r).path = r.segments.flatMap fun s => '/' :: from_path_segment S [s] := rfl
  have hA : ∀ b, (builder S r).authority = some b → ∃ d, r.authority = some d ∧ AuthDec S (authParts b) d ∧
      UserOk b.userinfo := by
    intro b hb
    cases hr : r.authority with
    | none => simp [builder, hr] at hb
    | some d =>
      refine ⟨d, rfl, auth_dec S d b ?_⟩
      rw [← hb]; simp [builder, hr]
  have hn : (builder S r).authority = none ↔ r.authority = none := by simp [builder]
  constructor
  · intro h
    refine ⟨h.scheme, ?_, ?_⟩
    · have := h.kind
      cases k
      · trivial
      · exact this
      · exact ⟨this.1, by simpa [builder] using this.2⟩
      · exact this
    · intro ha s l e
      obtain ⟨t, ht⟩ := (seg_dslash (S := S)).2 ⟨s, l, e⟩
      exact h.withoutAuthority (hn.2 ha) rfl t ht
  · rintro ⟨h1, h2, h3⟩
    refine ⟨?_, h1, fun b hb => ?_, fun _ => ?_, fun ha _ t ht => ?_, fun _ _ => ?_, ?_, ?_⟩
    · cases k
      · trivial
      · exact h2
      · exact ⟨h2.1, by simpa [builder] using h2.2⟩
      · exact h2
    · obtain ⟨d, _, h5, h6⟩ := hA b hb
      exact ⟨h5.valid, h6⟩
    · rw [hpath]
      cases r.segments with
      | nil => exact .inl rfl
      | cons s l => exact .inr ⟨_, rfl⟩
    · obtain ⟨s, m, e⟩ := (seg_dslash (S := S)).1 ⟨t, ht⟩
      exact h3 (hn.1 ha) s m e
    · rw [hpath]
      rintro ⟨a, b, e, hs⟩
      cases hr : r.segments with
      | nil => rw [hr] at e; cases a <;> cases e
      | cons s l =>
        rw [hr, List.flatMap_cons, List.cons_append] at e
        cases a with
        | nil => cases (List.cons.inj e).1
        | cons c a => exact hs (by rw [← (List.cons.inj e).1]; simp)
    · intro x hx
      cases hq : r.query with
      | none => simp [builder, hq] at hx
      | some q => simp [builder, hq] at hx; subst hx; exact (C22_constructors S q).2.2.2.2.2.1
    · intro x hx
      cases hq : r.fragment with
      | none => simp [builder, hq] at hx
      | some q => simp [builder, hq] at hx; subst hx; exact (C22_constructors S q).2.2.2.2.2.2.1

theorem builder_dec (S : Spec) (k : IriKind) (r : Raw) (h : Transportable k r) : PartsDec S (parts (builder S r)) r := by
  have ha := (builder_acceptable S k r).2 h
  refine ⟨parts_valid ha (seg_path S _) (fun e => ha.withoutAuthority e rfl), rfl, ?_, ?_, ?_, ?_, ?_⟩
  · intro e; simp [parts, builder, e]
  · intro d hd
    obtain ⟨b, hb⟩ : ∃ b, (builder S ⟨none, some d, [], none, none⟩).authority = some b := ⟨_, rfl⟩
    refine ⟨authParts b, ?_, (auth_dec S d b hb).1⟩
    have e : (builder S r).authority = (builder S ⟨none, some d, [], none, none⟩).authority := by
      simp [builder, hd]
    show (builder S r).authority.map _ = _
    rw [e, hb]; rfl
  · exact flatMap_pathDec fun s _ => ⟨seg_no_slash S s, dec_encode S .pathSegment s⟩
  · show OptDec (r.query.map _) _
    cases r.query with
    | none => trivial
    | some q => exact dec_encode S .query q
  · show OptDec (r.fragment.map _) _
    cases r.fragment with
    | none => trivial
    | some q => exact dec_encode S .fragment q

/-- **C70.**  Any data can be written with the builder and the encoders, and reading the result gives the data
back; the build fails exactly for data that is not transportable. -/
theorem C70_round_trip (S : Spec) (k : IriKind) (r : Raw) :
    (Transportable k r → ∃ B s, (builder S r).build S k = some (some B) ∧ B.display S = some s ∧ grammar S k s ∧
      read s = some r) ∧
    (¬ Transportable k r → (builder S r).build S k = some none) := by
  obtain ⟨h1, h2⟩ := C28_build_raw S k (builder S r) rfl
  refine ⟨fun h => ?_, fun h => h2 fun h' => h ((builder_acceptable S k r).1 h')⟩
  obtain ⟨B, h3, h4⟩ := h1 ((builder_acceptable S k r).2 h)
  obtain ⟨s, h5, h6, h7, _⟩ := C28_output_valid_partial S k _ rfl (seg_path S _) B h3
  refine ⟨B, s, h3, h5, h6, ?_⟩
  rw [h7]
  exact (builder_dec S k r h).read

/-! ## What the reader accepts -/

theorem dec_of_read {x s : Str} (hw : WF x) (h : RoundTrip.decode x = some s) : Dec x s := by
  refine ⟨hw, ?_⟩
  obtain ⟨r, h1, h2⟩ := C23_into_string_partial (utf8s x) (wf_no_stray hw)
  unfold RoundTrip.decode at h
  rw [h1] at h
  rw [← C23_text, (h2 s).1 h]

theorem splitAt_spec (c : Char) : ∀ s : Str, ∃ x l, Rfc6570.splitAt c s = x :: l ∧
    s = x ++ l.flatMap (c :: ·) ∧ ∀ y ∈ x :: l, c ∉ y
  | [] => ⟨[], [], rfl, rfl, by simp⟩
  | d :: s => by
    obtain ⟨x, l, h1, h2, h3⟩ := splitAt_spec c s
    by_cases h : d = c
    · subst h
      refine ⟨[], x :: l, by simp [Rfc6570.splitAt, h1], by rw [h2]; simp, ?_⟩
      intro y hy
      rcases List.mem_cons.1 hy with rfl | hy
      · simp
      · exact h3 y hy
    · refine ⟨d :: x, l, by simp [Rfc6570.splitAt, h, h1], by rw [h2]; simp, ?_⟩
      intro y hy
      rcases List.mem_cons.1 hy with rfl | hy
      · have := h3 x (by simp)
        simp [this, Ne.symm h]
      · exact h3 y (by simp [hy])

theorem optDec_of_read {x s : Option Str} (hw : ∀ y, x = some y → WF y)
    (h : RoundTrip.opt RoundTrip.decode x = some s) : OptDec x s := by
  cases x with
  | none => cases h; trivial
  | some x =>
    simp only [RoundTrip.opt, Option.map_eq_some_iff] at h
    obtain ⟨y, h1, rfl⟩ := h
    exact dec_of_read (hw x rfl) h1

theorem pathDec_of_all {l : List Str} {m : List Str} (hw : ∀ y ∈ l, WF y) (hn : ∀ y ∈ l, '/' ∉ y)
    (h : RoundTrip.all RoundTrip.decode l = some m) : PathDec (l.flatMap ('/' :: ·)) m := by
  induction l generalizing m with
  | nil => cases h; exact .nil
  | cons x l ih =>
    simp only [RoundTrip.all, Option.bind_eq_some_iff, Option.map_eq_some_iff] at h
    obtain ⟨y, h1, z, h2, rfl⟩ := h
    exact .cons (hn x (by simp)) (dec_of_read (hw x (by simp)) h1)
      (ih (fun y hy => hw y (by simp [hy])) (fun y hy => hn y (by simp [hy])) h2)

theorem wf_pieces {c : Char} (hc : c ≠ '%') (hx : isHex c = false) {x : Str} {l : List Str}
    (h : WF (x ++ l.flatMap (c :: ·))) : ∀ y ∈ x :: l, WF y := by
  induction l generalizing x with
  | nil => intro y hy; simp at hy h; rw [hy]; exact h
  | cons z l ih =>
    rw [List.flatMap_cons, List.cons_append] at h
    obtain ⟨h1, _, h2⟩ := (PC_append_cons (p := fun _ => true) hc hx).1 h
    intro y hy
    rcases List.mem_cons.1 hy with rfl | hy
    · exact h1
    · exact ih h2 y hy

theorem pathDec_of_read {x : Str} {l : List Str} (hw : WF x) (h : readPath x = some l) : PathDec x l := by
  obtain ⟨y, m, h1, h2, h3⟩ := splitAt_spec '/' x
  unfold readPath at h
  rw [h1] at h
  cases y with
  | cons c y => cases h
  | nil =>
    have hp := wf_pieces (c := '/') (by decide) (by decide) (h2 ▸ hw)
    rw [h2]
    exact pathDec_of_all (fun y hy => hp y (by simp [hy])) (fun y hy => h3 y (by simp [hy])) h

theorem userDec_of_read {x : Option Str} {d : Option (Str × Option Str)} (hw : ∀ y, x = some y → WF y)
    (h : RoundTrip.opt readUser x = some d) : UserDec x d := by
  cases x with
  | none => cases h; trivial
  | some x =>
    simp only [RoundTrip.opt, Option.map_eq_some_iff] at h
    obtain ⟨e, h, rfl⟩ := h
    obtain ⟨y, m, h1, h2, h3⟩ := splitAt_spec ':' x
    have hp := wf_pieces (c := ':') (by decide) (by decide) (h2 ▸ hw x rfl)
    unfold readUser at h
    rw [h1] at h
    match m, h with
    | [], h =>
      simp only [Option.map_eq_some_iff] at h
      obtain ⟨u, h4, rfl⟩ := h
      simp at h2
      subst h2
      exact ⟨h3 x (by simp), dec_of_read (hp x (by simp)) h4⟩
    | [z], h =>
      simp only [Option.bind_eq_some_iff, Option.map_eq_some_iff] at h
      obtain ⟨u, h4, v, h5, rfl⟩ := h
      simp at h2
      exact ⟨y, z, h2, h3 y (by simp), h3 z (by simp), dec_of_read (hp y (by simp)) h4,
        dec_of_read (hp z (by simp)) h5⟩

theorem authDec_of_read {S : Spec} {a : AuthParts} {r : RawAuthority} (hv : a.Valid S)
    (h : readAuthority (decompose_authority a.recompose) = some r) : AuthDec S a r := by
  unfold readAuthority at h
  rw [decompose_authority_eq hv, offsets_userinfo, offsets_host, offsets_port] at h
  simp only [bind, Option.bind_some, Option.bind_eq_some_iff] at h
  obtain ⟨u, h1, x, h2, n, h3, h4⟩ := h
  cases h4
  exact ⟨hv, userDec_of_read (fun y hy => ((userinfo_iff S _).1 (hv.userinfo y hy)).wf) h1,
    dec_of_read (host_wf hv.host) h2, h3⟩

theorem partsDec_of_read {S : Spec} {p : Parts} {r : Raw} (hv : p.Valid S)
    (h : RoundTrip.read p.recompose = some r) : PartsDec S p r := by
  have hd := hv.delim
  unfold RoundTrip.read at h
  simp only [RiReferenceStr.path_str, hd.extract_path_eq, RiReferenceStr.query_str, hd.extract_query_eq,
    RiReferenceStr.fragment_str, hd.extract_fragment_eq, RiReferenceStr.scheme_str, hd.extract_scheme_eq,
    RiReferenceStr.authority_components, AuthorityComponents.from_iri, hd.extract_authority_eq,
    bind, Option.bind_some, Option.bind_eq_some_iff] at h
  obtain ⟨a, h1, l, h2, q, h3, f, h4, h5⟩ := h
  cases h5
  refine ⟨hv, rfl, ?_, ?_, pathDec_of_read hv.pathPC.wf h2, optDec_of_read (fun y hy => query_wf hv hy) h3,
    optDec_of_read (fun y hy => fragment_wf hv hy) h4⟩
  · intro e
    cases hp : p.authority with
    | none => rfl
    | some x =>
      rw [hp] at h1
      simp only [Option.map_some, RoundTrip.opt, Option.map_eq_some_iff] at h1
      obtain ⟨d, _, h6⟩ := h1
      cases h6; cases e
  · intro d e
    cases hp : p.authority with
    | none => rw [hp] at h1; cases h1; cases e
    | some x =>
      rw [hp] at h1
      simp only [Option.map_some, RoundTrip.opt, Option.map_eq_some_iff] at h1
      obtain ⟨d', h6, h7⟩ := h1
      cases h7; cases e
      obtain ⟨b, hb, rfl⟩ := (authority_auth_parts S x).1 (hv.authority x hp)
      exact ⟨b, rfl, authDec_of_read hb h6⟩

/-! ## Conversion to a URI -/

theorem map_no {d : Char} (hd : d.toNat < 128) (hp : d ≠ '%') (hx : isHex d = false) {s : Str} (h : d ∉ s) :
    d ∉ mapToUri s := by
  intro hm
  obtain ⟨a, b, e⟩ := List.append_of_mem hm
  obtain ⟨a', b', rfl, _⟩ := mapToUri_cut hd hp hx e
  exact h (by simp)

theorem UserDec.map {x : Option Str} {d : Option (Str × Option Str)} (h : UserDec x d) :
    UserDec (x.map mapToUri) d := by
  have hn := fun s => map_no (d := ':') (by decide) (by decide) (by decide) (s := s)
  match x, d, h with
  | none, none, _ => trivial
  | some x, some (u, none), ⟨h1, h2⟩ => exact ⟨hn _ h1, h2.map⟩
  | some x, some (u, some p), ⟨y, z, h1, h2, h3, h4, h5⟩ =>
    refine ⟨mapToUri y, mapToUri z, ?_, hn _ h2, hn _ h3, h4.map, h5.map⟩
    rw [h1, mapToUri_append, mapToUri_cons_ascii (by decide)]

theorem OptDec.map {x s : Option Str} (h : OptDec x s) : OptDec (x.map mapToUri) s := by
  match x, s, h with
  | none, none, _ => trivial
  | some x, some s, h => exact Dec.map h

theorem PathDec.map {x : Str} {l : List Str} (h : PathDec x l) : PathDec (mapToUri x) l := by
  induction h with
  | nil => exact .nil
  | cons h1 h2 _ ih =>
    rw [mapToUri_cons_ascii (by decide), mapToUri_append]
    exact .cons (map_no (by decide) (by decide) (by decide) h1) h2.map ih

theorem PartsDec.map {S : Spec} {p : Parts} {r : Raw} (h : PartsDec S p r) : PartsDec .uri (mapParts p) r := by
  refine ⟨mapParts_valid h.valid, h.scheme, ?_, ?_, h.path.map, h.query.map, h.fragment.map⟩
  · intro e; simp [mapParts, h.noAuthority e]
  · intro d hd
    obtain ⟨a, h1, h2⟩ := h.authority d hd
    refine ⟨mapAuth a, ?_, mapAuth_valid h2.valid, h2.user.map, h2.host.map, h2.port⟩
    simp [mapParts, h1, mapAuth_recompose h2.valid]

/-- **C70.**  Converting a reference to a URI does not change what is read. -/
theorem C70_uri (S : Spec) (s : Str) (r : Raw) (h : IRI_reference S s) (hr : read s = some r) :
    ∃ u, encode_to_uri s = some u ∧ IRI_reference .uri u ∧ read u = some r := by
  obtain ⟨p, hv, rfl⟩ := (IRI_reference_parts S s).1 h
  have hd := (partsDec_of_read hv hr).map
  refine ⟨_, (C24_components S p hv).1, (IRI_reference_parts _ _).2 ⟨_, hd.valid, rfl⟩, hd.read⟩

/-! ## Normalization -/

theorem Dec.norm {S : Spec} {x s : Str} (h : Dec x s) : Dec (pctn S x) s :=
  ⟨pctn_wf h.1, by rw [pctn_decode h.1, h.2]⟩

theorem pctn_no {S : Spec} {d : Char} (hp : d ≠ '%') (hx : isHex d = false) (hu : iunreserved S d = false)
    {s : Str} (hw : WF s) (h : d ∉ s) : d ∉ pctn S s := by
  intro hm
  rcases pctn_mem hw hm with h1 | h1 | h1 | h1
  · exact h h1
  · exact hp h1
  · rw [hx] at h1; cases h1
  · rw [hu] at h1; cases h1

theorem UserDec.norm {S : Spec} {x : Option Str} {d : Option (Str × Option Str)} (h : UserDec x d) :
    UserDec (x.map (pctn S)) d := by
  have hn := fun s => pctn_no (S := S) (d := ':') (by decide) (by decide) (by cases S <;> decide) (s := s)
  match x, d, h with
  | none, none, _ => trivial
  | some x, some (u, none), ⟨h1, h2⟩ => exact ⟨hn _ h2.1 h1, h2.norm⟩
  | some x, some (u, some p), ⟨y, z, h1, h2, h3, h4, h5⟩ =>
    refine ⟨pctn S y, pctn S z, ?_, hn _ h4.1 h2, hn _ h5.1 h3, h4.norm, h5.norm⟩
    rw [h1, pctn_append_ch S h4.1 (by decide) h5.1]

theorem OptDec.norm {S : Spec} {x s : Option Str} (h : OptDec x s) : OptDec (x.map (wr S .default)) s := by
  match x, s, h with
  | none, none, _ => trivial
  | some x, some s, h => exact Dec.norm h

theorem PathDec.wf {x : Str} {l : List Str} (h : PathDec x l) : WF x := by
  induction h with
  | nil => exact .nil
  | cons _ h2 _ ih => exact .chr (by decide) rfl (PC.append h2.1 ih)

theorem PathDec.norm {S : Spec} {x : Str} {l : List Str} (h : PathDec x l) :
    PathDec (pctn S x) l ∧ ∀ a, WF a → pctn S (a ++ x) = pctn S a ++ pctn S x := by
  induction h with
  | nil => exact ⟨by rw [pctn_nil]; exact .nil, fun a _ => by simp [pctn_nil]⟩
  | @cons x s r l h1 h2 h3 ih =>
    have e : pctn S ('/' :: (x ++ r)) = '/' :: (pctn S x ++ pctn S r) := by
      rw [pctn_ch S (by decide) (PC.append h2.1 h3.wf), ih.2 x h2.1]
    constructor
    · rw [e]
      exact .cons (pctn_no (by decide) (by decide) (by cases S <;> decide) h2.1 h1) h2.norm ih.1
    · intro a ha
      rw [pctn_append_ch S ha (by decide) (PC.append h2.1 h3.wf), e, ih.2 x h2.1]

theorem lower_bytes {s : Str} (h : s.all (fun c => decide (c.toNat < 128)) = true) :
    (utf8s s).map lowerByte = utf8s (s.map lower) := by
  have k1 : ∀ c : Char, c.toNat < 128 → utf8 (lower c) = (utf8 c).map lowerByte := by
    refine fun c hc => ascii_forall (P := fun c => utf8 (lower c) = (utf8 c).map lowerByte) ?_ c hc
    decide +kernel
  induction s with
  | nil => rfl
  | cons c s ih =>
    simp only [List.all_cons, Bool.and_eq_true, decide_eq_true_eq] at h
    rw [utf8s_cons, List.map_append, List.map_cons, utf8s_cons, ih (by simpa using h.2), k1 c h.1]

theorem bytes_ascii {s : Str} : (∀ b ∈ utf8s s, b < 128) ↔ s.all (fun c => decide (c.toNat < 128)) = true := by
  rw [List.all_eq_true]
  constructor
  · intro h c hc
    have := utf8_all_ascii c
    rw [List.all_eq_true.2] at this
    · simpa using this.symm
    · intro b hb
      have := h b (List.mem_flatMap.2 ⟨c, hc, hb⟩)
      simpa using this
  · intro h b hb
    obtain ⟨c, hc, hb⟩ := List.mem_flatMap.1 hb
    have h1 := h c hc
    rw [utf8_ascii (by simpa using h1)] at hb
    simp at hb
    rw [hb]; simpa using h1

theorem Dec.host {S : Spec} {x s : Str} (h : Dec x s) :
    Dec (hostn S x) (if s.all (fun c => decide (c.toNat < 128)) then s.map lower else s) := by
  have sp := hostn_same (S := S) h.1
  have hw : WF (hostn S x) := by
    unfold hostn
    split
    · rename_i ha
      exact render_wf (asciiN_ok (tokens_ok h.1) ha)
    · exact pctn_wf h.1
  refine ⟨hw, ?_⟩
  split
  · rename_i ha
    rw [sp.ascii (by rw [h.2]; exact bytes_ascii.2 ha), h.2, lower_bytes ha]
  · rename_i ha
    rw [sp.unicode, h.2]
    apply Classical.byContradiction
    intro hn
    apply ha
    rw [← bytes_ascii]
    intro b hb
    apply Classical.byContradiction
    intro hb'
    exact hn ⟨b, by rw [h.2]; exact hb, by omega⟩

theorem port_norm {x : Option Str} {n : Option UInt16} (h : RoundTrip.opt readPort x = some n) : portn x = x := by
  unfold portn
  split
  · rename_i e
    rw [e] at h
    simp [RoundTrip.opt, readPort] at h
  · rfl

theorem PathDec.noDots {x : Str} {l : List Str} (h : PathDec x l) (hd : ∀ s ∈ l, s ≠ ['.'] ∧ s ≠ ['.', '.']) :
    ∀ a, '/' ∉ a → NotDot a → ∀ n ∈ splitSlash (a ++ x), NotDot n := by
  induction h with
  | nil =>
    intro a ha hn n hm
    rw [List.append_nil, splitSlash_no ha] at hm
    simp at hm; rw [hm]; exact hn
  | @cons x s r l h1 h2 h3 ih =>
    intro a ha hn n hm
    rw [splitSlash_append ha] at hm
    rcases List.mem_cons.1 hm with rfl | hm
    · exact hn
    · refine ih (fun s hs => hd s (by simp [hs])) x h1 ?_ n hm
      have := hd s (by simp)
      unfold NotDot
      rw [h2.2]
      have e1 : [0x2E] = utf8s ['.'] := by decide
      have e2 : [0x2E, 0x2E] = utf8s ['.', '.'] := by decide
      rw [e2, e1]
      exact ⟨fun e => this.1 (utf8s_inj e), fun e => this.2 (utf8s_inj e)⟩

theorem PartsDec.norm {S : Spec} {p : Parts} {r : Raw} (h : PartsDec S p r) (hs : r.scheme ≠ none)
    (hd : ∀ s ∈ r.segments, s ≠ ['.'] ∧ s ≠ ['.', '.']) : PartsDec S (normParts S .default p) (normalized r) := by
  have hs' : p.scheme ≠ none := by rw [h.scheme]; exact hs
  have hn := normParts_valid (op := .default) h.valid hs'
  refine ⟨hn, ?_, ?_, ?_, ?_, h.query.norm, h.fragment.norm⟩
  · simp [normParts, NormalizationMode.case_pct, normalized, h.scheme, lower_eq]
  · intro e
    have : r.authority = none := by simpa [normalized] using e
    simp [normParts, h.noAuthority this]
  · intro d e
    simp only [normalized, Option.map_eq_some_iff] at e
    obtain ⟨d', e1, rfl⟩ := e
    obtain ⟨a, h1, h2⟩ := h.authority d' e1
    refine ⟨a.norm S, ?_, h2.valid.norm, h2.user.norm, h2.host.host, ?_⟩
    · simp [normParts, NormalizationMode.case_pct, h1, authn_eq h2.valid]
    · show RoundTrip.opt readPort (portn a.port) = _
      rw [port_norm h2.port]; exact h2.port
  · have e : (normParts S .default p).path = pctn S p.path := by
      have hr := C16_no_dots_unchanged p.path (by
        have := h.path.noDots hd [] (by simp) (by constructor <;> decide)
        rwa [List.nil_append] at this)
      have hwf := h.valid.pathPC.wf
      unfold normParts pathn
      simp only [hr]
      rw [if_neg (by simp), wr, if_pos (by rfl)]
      unfold escapePath
      rw [if_neg]
      intro hesc
      simp only [Bool.and_eq_true, Bool.not_eq_true', Option.isSome_eq_false_iff,
        Option.isNone_iff_eq_none] at hesc
      obtain ⟨r, hr2⟩ := take2_slash.1 hesc.2
      obtain ⟨r1, hr1⟩ : ∃ r1, p.path = '/' :: r1 := pctn_head hwf hr2
      rw [hr1] at hwf hr2
      have hwf1 : WF r1 := ((PC_cons (by decide)).1 hwf).2
      rw [pctn_ch S (by decide) hwf1] at hr2
      obtain ⟨r2, hr3⟩ := pctn_head hwf1 (List.cons.inj hr2).2
      exact h.valid.withoutAuthority hesc.1 r2 (by rw [hr1, hr3])
    rw [e]
    exact h.path.norm.1

/-- **C70.**  Normalizing an IRI changes what is read only in the letter case of the scheme and of a US-ASCII
host, unless there is a segment `.` or `..` (percent-encoded or not) to remove. -/
theorem C70_normalized (S : Spec) (s : Str) (r : Raw) (h : IRI S s) (hr : read s = some r)
    (hd : ∀ x ∈ r.segments, x ≠ ['.'] ∧ x ≠ ['.', '.']) :
    ∃ t, normalize S s = some t ∧ IRI S t ∧ read t = some (normalized r) := by
  obtain ⟨p, hv, hs, rfl⟩ := (IRI_parts S s).1 h
  have hp := partsDec_of_read hv hr
  have hd := hp.norm (by rw [← hp.scheme]; exact hs) hd
  refine ⟨_, normalize_eq hv hs, (IRI_parts S _).2 ⟨_, hd.valid, ?_, rfl⟩, hd.read⟩
  obtain ⟨x, hx⟩ := Option.ne_none_iff_exists'.1 hs
  simp [normParts, hx, NormalizationMode.case_pct]

/-- **C70.**  The same for a builder that normalizes. -/
theorem C70_normalizing_builder (S : Spec) (k : IriKind) (r : Raw) (h : Transportable k r) (hs : r.scheme ≠ none)
    (hd : ∀ x ∈ r.segments, x ≠ ['.'] ∧ x ≠ ['.', '.']) :
    ∃ B t, ((builder S r).set .normalize).build S k = some (some B) ∧ B.display S = some t ∧ IRI S t ∧
      read t = some (normalized r) := by
  obtain ⟨B, s, h1, h2, _, h4⟩ := (C70_round_trip S k r).1 h
  obtain ⟨B', s', h5, h6, h7, _⟩ := C30_equals_normalize S k (builder S r) rfl hs (seg_path S _) B h1
  rw [h2] at h6
  cases h6
  have hv := (builder_dec S k r h)
  have hI : IRI S s := by
    obtain ⟨s2, e1, _, e2, e3⟩ := C28_output_valid_partial S k (builder S r) rfl (seg_path S _) B h1
    rw [h2] at e1
    cases e1
    exact (IRI_parts S _).2 ⟨_, e3, by rw [hv.scheme]; exact hs, e2.symm⟩
  obtain ⟨t, h8, h9, h10⟩ := C70_normalized S s r hI h4 hd
  exact ⟨B', t, h5, by rw [h7, h8], h9, h10⟩

/-- Data with every delimiter, non-ASCII characters, percent signs and an empty segment. -/
def exampleRaw : Raw where
  scheme := some (chars! "HTTP")
  authority := some ⟨some (chars! "a:b@c", some (chars! "p/ä:%")), chars! "Ex[1]:80", some 8080⟩
  segments := [[], chars! "x/y", chars! "%2F", chars! "...", chars! "日本?"]
  query := some (chars! "k=v&#%")
  fragment := some []

example : Transportable .iri exampleRaw ∧ (∀ x ∈ exampleRaw.segments, x ≠ ['.'] ∧ x ≠ ['.', '.']) := by
  refine ⟨⟨?_, ?_, ?_⟩, ?_⟩
  · intro x hx
    cases hx
    exact (C05_scheme _).1 (by decide +kernel)
  · intro h; cases h
  · intro h; cases h
  · decide +kernel

/-- The text written for `exampleRaw`. -/
def exampleText : Str :=
  chars! "HTTP://a%3Ab%40c:p%2Fä%3A%25@Ex%5B1%5D%3A80:8080//x%2Fy/%252F/.../日本%3F?k=v&%23%25#"

example : (builder .iri exampleRaw).build .iri .iri = some (some ⟨builder .iri exampleRaw, true⟩) ∧
    Built.display .iri ⟨builder .iri exampleRaw, true⟩ = some exampleText ∧
    read exampleText = some exampleRaw ∧
    (encode_to_uri exampleText).bind read = some exampleRaw ∧
    (normalize .iri exampleText).bind read = some { exampleRaw with
      scheme := some (chars! "http")
      authority := some ⟨some (chars! "a:b@c", some (chars! "p/ä:%")), chars! "ex[1]:80", some 8080⟩ } := by
  decide +kernel

/-- A segment `..` does not survive normalization, not even percent-encoded. -/
example : read (chars! "a:/b/%2E./c") = some ⟨some (chars! "a"), none, [chars! "b", chars! "..", chars! "c"], none, none⟩ ∧
    (normalize .iri (chars! "a:/b/%2E./c")).bind read = some ⟨some (chars! "a"), none, [chars! "c"], none, none⟩ := by
  decide +kernel

end Verif
