import Verif.Spec.Structured
import Verif.Props.RoundTrip

/-!
# C76: structured data survives
-/

namespace Verif

open Rfc Structured

/-- What the characters of a separator must be for a text transformation to leave them alone. -/
theorem reserved_facts {c : Char} (h : reserved c = true) :
    c.toNat < 128 ∧ c ≠ '%' ∧ isHex c = false ∧ ∀ S, iunreserved S c = false := by
  have hm : c ∈ (chars! ":/?#[]@!$&'()*+,;=") := by
    simp [reserved, gen_delims, sub_delims] at h
    simp only [List.mem_cons, List.not_mem_nil, or_false]
    simpa only [or_assoc] using h
  have : ∀ c ∈ (chars! ":/?#[]@!$&'()*+,;="), c.toNat < 128 ∧ c ≠ '%' ∧ isHex c = false ∧
      iunreserved .uri c = false ∧ iunreserved .iri c = false := by decide
  obtain ⟨h1, h2, h3, h4, h5⟩ := this c hm
  exact ⟨h1, h2, h3, fun S => by cases S <;> assumption⟩

/-- A transformation of well-formed texts that commutes with splitting and keeps the meaning. -/
structure Keeps (f : Str → Str) : Prop where
  wf : ∀ x, WF x → WF (f x)
  decode : ∀ x, WF x → pctDecode (f x) = pctDecode x
  cut : ∀ a c b, reserved c = true → WF a → WF b → f (a ++ c :: b) = f a ++ c :: f b
  avoid : ∀ a c, reserved c = true → WF a → c ∉ a → c ∉ f a

theorem keeps_id : Keeps id :=
  ⟨fun _ h => h, fun _ _ => rfl, fun _ _ _ _ _ _ => rfl, fun _ _ _ _ h => h⟩

theorem keeps_pctn (S : Spec) : Keeps (pctn S) :=
  ⟨fun _ h => pctn_wf h, fun _ h => pctn_decode h,
    fun _ _ _ h ha hb => pctn_append_ch S ha (reserved_facts h).2.1 hb,
    fun _ _ h ha hn => pctn_no (reserved_facts h).2.1 (reserved_facts h).2.2.1 ((reserved_facts h).2.2.2 S) ha hn⟩

theorem keeps_map : Keeps mapToUri :=
  ⟨fun _ h => mapToUri_WF h, fun _ h => mapToUri_wf_decode h,
    fun _ _ _ h _ _ => by rw [mapToUri_append, mapToUri_cons_ascii (reserved_facts h).1],
    fun _ _ h _ hn => map_no (reserved_facts h).1 (reserved_facts h).2.1 (reserved_facts h).2.2.1 hn⟩

theorem keeps_wr (S : Spec) (op : NormalizationMode) : Keeps (wr S op) := by
  unfold wr
  cases op.case_pct with
  | false => exact keeps_id
  | true => exact keeps_pctn S

theorem Keeps.splitAt {f : Str → Str} (hf : Keeps f) {c : Char} (hc : reserved c = true) :
    ∀ (n : Nat) (x : Str), x.length = n → WF x →
      Rfc6570.splitAt c (f x) = (Rfc6570.splitAt c x).map f ∧ ∀ y ∈ Rfc6570.splitAt c x, WF y := by
  intro n
  induction n using Nat.strongRecOn with
  | ind n ih =>
    intro x hn hw
    by_cases hm : c ∈ x
    · obtain ⟨a, b, rfl, ha⟩ := exists_first hm
      obtain ⟨w1, -, w2⟩ := (PC_append_cons (p := fun _ => true) (reserved_facts hc).2.1 (reserved_facts hc).2.2.1).1 hw
      obtain ⟨e1, e2⟩ := ih b.length (by simp at hn; omega) b rfl w2
      rw [hf.cut a c b hc w1 w2, splitAt_cons (hf.avoid a c hc w1 ha), splitAt_cons ha, e1]
      refine ⟨rfl, ?_⟩
      intro y hy
      rcases List.mem_cons.1 hy with rfl | hy
      · exact w1
      · exact e2 y hy
    · rw [splitAt_none hm, splitAt_none (hf.avoid x c hc hw hm)]
      exact ⟨rfl, by simpa using hw⟩

theorem Keeps.leaf {f : Str → Str} (hf : Keeps f) {x : Str} (hw : WF x) :
    into_string (utf8s (f x)) = into_string (utf8s x) := by
  obtain ⟨r, h1, h2⟩ := C23_into_string_partial (utf8s x) (wf_no_stray hw)
  obtain ⟨r', h1', h2'⟩ := C23_into_string_partial (utf8s (f x)) (wf_no_stray (hf.wf x hw))
  rw [h1, h1']
  congr 1
  rw [C23_text, hf.decode x hw, ← C23_text] at h2'
  cases r with
  | some s => exact (h2' s).2 ((h2 s).1 rfl)
  | none =>
    cases r' with
    | none => rfl
    | some s => exact ((h2 s).2 ((h2' s).1 rfl)).symm

theorem Keeps.readText {f : Str → Str} (hf : Keeps f) {seps : List Char} (hs : ∀ c ∈ seps, reserved c = true) :
    ∀ {x : Str}, WF x → Structured.readText seps (f x) = Structured.readText seps x := by
  induction seps with
  | nil => intro x hw; simp only [Structured.readText, hf.leaf hw]
  | cons c seps ih =>
    intro x hw
    obtain ⟨e1, e2⟩ := hf.splitAt (hs c (by simp)) _ x rfl hw
    simp only [Structured.readText, e1, List.map_map]
    congr 1
    exact List.map_congr_left fun y hy => ih (fun c hc => hs c (by simp [hc])) (e2 y hy)

/-- Two references whose queries and fragments are related by such transformations are read alike. -/
theorem Keeps.optText {f : Str → Str} (hf : Keeps f) {seps : List Char} (hs : ∀ c ∈ seps, reserved c = true)
    {x : Option Str} (hw : ∀ y, x = some y → WF y) :
    (x.map f).map (Structured.readText seps) = x.map (Structured.readText seps) := by
  cases x with
  | none => rfl
  | some y => simp [hf.readText hs (hw y rfl)]

theorem readQuery_parts {S : Spec} {p : Parts} (hv : p.Valid S) (seps : List Char) :
    readQuery seps p.recompose = some (p.query.map (readText seps)) := by
  simp only [readQuery, RiReferenceStr.query_str, hv.delim.extract_query_eq, Option.map_some]

theorem readFragment_parts {S : Spec} {p : Parts} (hv : p.Valid S) (seps : List Char) :
    readFragment seps p.recompose = p.fragment.map (readText seps) := by
  simp only [readFragment, RiReferenceStr.fragment_str, hv.delim.extract_fragment_eq]

/-- **C76**: normalization, in both modes, does not change what an application reads from the query and from the
fragment, whatever reserved characters it splits them at. -/
theorem C76_normalize (S : Spec) (s : Str) (h : IRI S s) (seps : List Char) (hs : ∀ c ∈ seps, reserved c = true) :
    (∃ t, normalize S s = some t ∧ readQuery seps t = readQuery seps s ∧ readFragment seps t = readFragment seps s) ∧
    (∃ t, normalize_but_preserve_authorityless_relative_path S s = some t ∧ readQuery seps t = readQuery seps s ∧
      readFragment seps t = readFragment seps s) := by
  obtain ⟨p, hv, hsc, rfl⟩ := (IRI_parts S s).1 h
  have key : ∀ op, readQuery seps (normParts S op p).recompose = readQuery seps p.recompose ∧
      readFragment seps (normParts S op p).recompose = readFragment seps p.recompose := by
    intro op
    have hn := normParts_valid (op := op) hv hsc
    rw [readQuery_parts hv, readQuery_parts hn, readFragment_parts hv, readFragment_parts hn]
    exact ⟨congrArg some ((keeps_wr S op).optText hs fun y hy => query_wf hv hy),
      (keeps_wr S op).optText hs fun y hy => fragment_wf hv hy⟩
  exact ⟨⟨_, normalize_eq hv hsc, key _⟩, ⟨_, normalize_preserve_eq hv hsc, key _⟩⟩

/-- **C76**: nor does conversion to a URI, of a reference of any type. -/
theorem C76_uri (S : Spec) (s : Str) (h : IRI_reference S s) (seps : List Char)
    (hs : ∀ c ∈ seps, reserved c = true) :
    ∃ u, encode_to_uri s = some u ∧ readQuery seps u = readQuery seps s ∧
      readFragment seps u = readFragment seps s := by
  obtain ⟨p, hv, rfl⟩ := (IRI_reference_parts S s).1 h
  obtain ⟨h1, h2⟩ := C24_components S p hv
  refine ⟨_, h1, ?_, ?_⟩
  · rw [readQuery_parts hv, readQuery_parts h2]
    exact congrArg some (keeps_map.optText hs fun y hy => query_wf hv hy)
  · rw [readFragment_parts hv, readFragment_parts h2]
    exact keeps_map.optText hs fun y hy => fragment_wf hv hy

theorem resolve_query {S : Spec} {b r : Parts} (hb : b.Valid S) (hs : b.scheme ≠ none)
    (hr : r.Valid S) (mode : NormalizationMode) :
    ∃ q : Parts, q.Valid S ∧ q.scheme ≠ none ∧ resolve S mode b.recompose r.recompose = some q.recompose ∧
      q.fragment = (mergeReference b r).fragment.map (wr S mode) ∧
      q.query = (mergeReference b r).query.map (wr S mode) := by
  obtain ⟨hm, hms⟩ := merge_valid hb hs hr
  by_cases ho : mode.case_pct = true
  · exact ⟨_, normParts_valid hm hms, normParts_scheme hms, resolve_norm_eq hb hs hr ho, rfl, rfl⟩
  · have : mode = .off := by cases mode <;> first | rfl | exact absurd rfl ho
    subst this
    have hw : wr S .off = id := by funext s; rfl
    obtain ⟨x, np, hx, hin, h1, h2⟩ := resolution_input hb hs hr
    unfold resolve
    rw [hin, Option.bind_some]
    simp only [NormalizationInput.withMode]
    cases h : samePath r with
    | true =>
      rw [h1 h]
      refine ⟨_, hm, hms, display_done_off hm hx, ?_, ?_⟩ <;> rw [hw] <;> simp
    | false =>
      obtain ⟨q, rfl, hi, ht⟩ := h2 h
      exact ⟨_, normParts_valid hm hms, normParts_scheme hms, display_needs hm hx hi ht, rfl, rfl⟩

theorem sameDocument_parts {S : Spec} {r : Parts} (hr : r.Valid S) : SameDocument r.recompose ↔
    r.scheme = none ∧ r.authority = none ∧ r.path = [] ∧ r.query = none := by
  have hd := hr.delim
  simp only [SameDocument, RiReferenceStr.path_str, hd.extract_path_eq, RiReferenceStr.query_str, hd.extract_query_eq,
    RiReferenceStr.scheme_str, hd.extract_scheme_eq, RiReferenceStr.authority_str, hd.extract_authority_eq,
    Option.some.injEq]

theorem merge_query (b r : Parts) : (mergeReference b r).fragment = r.fragment ∧
    ((r.scheme = none ∧ r.authority = none ∧ r.path = [] ∧ r.query = none) →
      (mergeReference b r).query = b.query) ∧
    (¬ (r.scheme = none ∧ r.authority = none ∧ r.path = [] ∧ r.query = none) →
      (mergeReference b r).query = r.query) := by
  unfold mergeReference
  cases h1 : r.scheme <;> cases h2 : r.authority <;> cases h3 : r.path <;> cases h4 : r.query <;> simp [*]

/-- **C76**: a resolved reference, in every mode, is read like the reference, except that a reference without any
component but the fragment is read, as to the query, like the base. -/
theorem C76_resolve (S : Spec) (mode : NormalizationMode) (base ref : Str) (hb : IRI S base)
    (hr : IRI_reference S ref) (seps : List Char) (hs : ∀ c ∈ seps, reserved c = true) :
    ∃ t, resolve S mode base ref = some t ∧ IRI S t ∧ readFragment seps t = readFragment seps ref ∧
      (¬ SameDocument ref → readQuery seps t = readQuery seps ref) ∧
      (SameDocument ref → readQuery seps t = readQuery seps base) := by
  obtain ⟨b, hbv, hbs, rfl⟩ := (IRI_parts S base).1 hb
  obtain ⟨r, hrv, rfl⟩ := (IRI_reference_parts S ref).1 hr
  obtain ⟨q, hq, hqs, e, e1, e2⟩ := resolve_query hbv hbs hrv mode
  obtain ⟨k1, k2, k3⟩ := merge_query b r
  refine ⟨_, e, (IRI_parts S _).2 ⟨q, hq, hqs, rfl⟩, ?_, ?_, ?_⟩
  · rw [readFragment_parts hq, readFragment_parts hrv, e1, k1]
    exact (keeps_wr S mode).optText hs fun y hy => fragment_wf hrv hy
  · intro h
    rw [sameDocument_parts hrv] at h
    rw [readQuery_parts hq, readQuery_parts hrv, e2, k3 h]
    exact congrArg some ((keeps_wr S mode).optText hs fun y hy => query_wf hrv hy)
  · intro h
    rw [sameDocument_parts hrv] at h
    rw [readQuery_parts hq, readQuery_parts hbv, e2, k2 h]
    exact congrArg some ((keeps_wr S mode).optText hs fun y hy => query_wf hbv hy)

/-! ## A template with a query, to the end -/

def _root_.Verif.Structured.Tree.kids : Tree → List Tree
  | .node l => l
  | .leaf _ => []

def _root_.Verif.Structured.Tree.val : Tree → Option (Option Str)
  | .node _ => none
  | .leaf x => x

theorem readBack_tree (sep : Char) (x : Str) :
    Rfc6570.readBack (fun x => into_string (utf8s x)) sep x =
      (readText [sep, '=', ','] x).kids.map fun y => y.kids.map fun z => z.kids.map Tree.val := by
  simp [Rfc6570.readBack, readText, Tree.kids, Tree.val, Function.comp_def]

open Rfc6570 Tpl in
/-- **C76**, from values to values: a template with the query `{?…}` is expanded, the result is resolved against
any base in any mode, and that is converted to a URI; the query of this URI, as the accessor returns it, reads back
as the values that the context handed out. -/
theorem C76_template (S : Spec) (dbg : Bool) (ctx : Ctx) (T : TemplateParts) (hf : T.Fits S) (hn : T.Anchored)
    (ha : Accepted T.pieces) (vars : List Var) (hq : T.query = .expr vars)
    (hv : ∀ v ∈ vars, '%' ∉ v.name ∧ v.hasPrefix = false)
    (hd : ∃ v ∈ vars, (flat (ctx .expand v.name)).defined = true) (out : Str)
    (h : expand_to_string S dbg ctx (text T.pieces) = .ok out)
    (mode : NormalizationMode) (base : Str) (hb : IRI S base) :
    ∃ t u q, resolve S mode base out = some t ∧ encode_to_uri t = some u ∧
      RiReferenceStr.query_str u = some (some q) ∧
      readBack (fun x => into_string (utf8s x)) '&' q =
        (exprRead (fun n => flat (ctx .expand n)) (some '?') vars).map (List.map (List.map fun s => some (some s))) := by
  obtain ⟨h1, q, h2, h3⟩ := C65_query S dbg ctx T hf hn ha vars hq hv out h
  have hany : (vars.any fun v => (flat (ctx .expand v.name)).defined) = true := List.any_eq_true.2 hd
  rw [hany, if_pos rfl] at h3
  obtain ⟨q0, rfl, h4⟩ := Option.map_eq_some_iff.1 h3
  obtain ⟨p, hp, rfl⟩ := reference_parts h1
  have hs : ∀ c ∈ ['&', '=', ','], reserved c = true := by decide
  obtain ⟨t, e1, e2, -, e3, -⟩ := C76_resolve S mode base p.recompose hb ((IRI_reference_parts S _).2 ⟨p, hp, rfl⟩)
    ['&', '=', ','] hs
  obtain ⟨tp, htp, hts, rfl⟩ := (IRI_parts S t).1 e2
  obtain ⟨u, e4, e5, -⟩ := C76_uri S tp.recompose ((IRI_reference_parts S _).2 ⟨tp, htp, rfl⟩) ['&', '=', ','] hs
  have hsame : ¬ SameDocument p.recompose := by
    rintro ⟨-, -, -, hx⟩
    rw [h2] at hx; cases hx
  rw [e3 hsame] at e5
  simp only [readQuery, h2, Option.map_some] at e5
  obtain ⟨x, hx, e6⟩ := Option.map_eq_some_iff.1 e5
  obtain ⟨y, rfl, e7⟩ := Option.map_eq_some_iff.1 e6
  refine ⟨_, u, y, e1, e4, hx, ?_⟩
  rw [readBack_tree, e7, ← readBack_tree, h4]

/-! ### Concrete cases -/

/-- The form `a=b%26&c` is read as `[["a","b&"],["c"]]`, before and after. -/
example : readText ['&', '='] (chars! "a=b%26&%63=%c3%a9") =
    .node [.node [.leaf (some (some ['a'])), .leaf (some (some ['b', '&']))],
      .node [.leaf (some (some ['c'])), .leaf (some (some ['é']))]] ∧
    normalize .iri (chars! "HTTP://h/x/../?a=b%26&%63=%c3%a9") = some (chars! "http://h/?a=b%26&c=é") ∧
    readText ['&', '='] (chars! "a=b%26&c=é") =
    .node [.node [.leaf (some (some ['a'])), .leaf (some (some ['b', '&']))],
      .node [.leaf (some (some ['c'])), .leaf (some (some ['é']))]] := by
  have e1 : into_string (utf8s ['a']) = some (some ['a']) := by decide +kernel
  have e2 : into_string (utf8s (chars! "b%26")) = some (some ['b', '&']) := by decide +kernel
  have e3 : into_string (utf8s (chars! "%63")) = some (some ['c']) := by decide +kernel
  have e4 : into_string (utf8s (chars! "%c3%a9")) = some (some ['é']) := by decide +kernel
  have e5 : into_string (utf8s ['c']) = some (some ['c']) := by decide +kernel
  have e6 : into_string (utf8s ['é']) = some (some ['é']) := by decide +kernel
  refine ⟨?_, by decide +kernel, ?_⟩
  · simp [readText, Rfc6570.splitAt, e1, e2, e3, e4]
  · simp [readText, Rfc6570.splitAt, e1, e2, e5, e6]

/-- The template of C64, resolved with normalization against some base. -/
example : ∃ t u q, resolve .uri .default (chars! "foo://bar/baz")
      (chars! "http://evil.example%2F%40@h.example:80/a/..%2Fx/%3F%23?q=a%26b%3D%23c#%23%3F") = some t ∧
    encode_to_uri t = some u ∧ RiReferenceStr.query_str u = some (some q) ∧
    Rfc6570.readBack (fun x => into_string (utf8s x)) '&' q =
      (Rfc6570.exprRead (fun n => Rfc6570.flat (componentsCtx .expand n)) (some '?') [⟨['q'], .none⟩, ⟨['r'], .none⟩]).map
        (List.map (List.map fun s => some (some s))) :=
  C76_template .uri true componentsCtx componentsExample componentsExample_fits componentsExample_anchored
    componentsExample_accepted [⟨['q'], .none⟩, ⟨['r'], .none⟩] rfl (by decide +kernel)
    ⟨⟨['q'], .none⟩, by decide +kernel, by decide +kernel⟩
    (chars! "http://evil.example%2F%40@h.example:80/a/..%2Fx/%3F%23?q=a%26b%3D%23c#%23%3F") (by decide +kernel) .default (chars! "foo://bar/baz")
    ((IRI_parts _ _).2 (by
      obtain ⟨p, h1, h2, h3⟩ := iri_parts' (S := .uri) (s := chars! "foo://bar/baz") (by decide +kernel)
      exact ⟨p, h1, h2, h3⟩))

/-- A character that is not reserved cannot be used as a separator: `.` is decoded by normalization. -/
example : reserved '.' = false ∧ normalize .uri (chars! "a:?x%2Ey") = some (chars! "a:?x.y") ∧
    Rfc6570.splitAt '.' (chars! "x%2Ey") ≠ (Rfc6570.splitAt '.' (chars! "x.y")) ∧
    (Rfc6570.splitAt '.' (chars! "x.y")).length = 2 := by decide +kernel

end Verif
