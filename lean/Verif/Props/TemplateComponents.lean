import Verif.Lemmas.TemplateComponents
import Verif.Props.TemplateSafe
import Verif.Props.Components
import Verif.Props.Validation

/-!
# C64: template values stay in the component they are written into
-/

namespace Verif

open Verif.Abnf Verif.Rfc Verif.Rfc6570 Verif.Tpl Verif.MaybePct

/-- The template expands to the text. -/
abbrev Expands (S : Spec) (dbg : Bool) (ctx : Ctx) (t : List Piece) (x : Str) : Prop :=
  expand_to_string S dbg ctx (text t) = .ok x

section

variable {S : Spec} {dbg : Bool} {ctx : Ctx}

theorem expands_small {t : List Piece} {x : Str} (ha : Accepted t) (h : Expands S dbg ctx t x) :
    SmallLengths t := by
  have := C33_exact S dbg ctx t ha
  unfold Expands at h
  rw [h] at this
  cases hc : checkAll (fun n => flat (ctx .typecheck n)) (places 0 t) with
  | ok u => exact check_ok_small hc
  | err k l => rw [hc] at this; cases this
  | panic => rw [hc] at this; cases this

theorem expands_exact {t : List Piece} {x : Str} (ha : Accepted t) (h : Expands S dbg ctx t x) :
    expansionExact S dbg (ctx .expand) t = some x := by
  have := C33_exact S dbg ctx t ha
  unfold Expands at h
  rw [h] at this
  cases hc : checkAll (fun n => flat (ctx .typecheck n)) (places 0 t) with
  | ok u =>
    rw [hc] at this
    simp only [Res.bind] at this
    cases he : expansionExact S dbg (ctx .expand) t with
    | none => rw [he] at this; cases this
    | some y => rw [he] at this; cases this; rfl
  | err k l => rw [hc] at this; cases this
  | panic => rw [hc] at this; cases this

theorem accepted_append {a b : List Piece} : Accepted (a ++ b) ↔ Accepted a ∧ Accepted b := by
  simp only [Accepted, List.mem_append, or_imp, forall_and]

theorem expands_append {a b : List Piece} {x : Str} (ha : Accepted (a ++ b)) (h : Expands S dbg ctx (a ++ b) x) :
    ∃ y z, Expands S dbg ctx a y ∧ Expands S dbg ctx b z ∧ x = y ++ z :=
  (C35_concat S dbg ctx a b x ha (expands_small ha h)).1 h

theorem expands_literally {s x : Str} (ha : Accepted (literally s)) (h : Expands S dbg ctx (literally s) x) :
    x = s :=
  (expansionExact_literally S dbg _ s).1 (expands_exact ha h)

end

/-- The operators of a template encode the values. -/
def Encoded (t : List Piece) : Prop := ∀ op vars, Piece.expr op vars ∈ t → op ≠ some '+' ∧ op ≠ some '#'

theorem encoded_append {a b : List Piece} : Encoded (a ++ b) ↔ Encoded a ∧ Encoded b := by
  constructor
  · intro h
    exact ⟨fun op vars hm => h op vars (by simp [hm]), fun op vars hm => h op vars (by simp [hm])⟩
  · rintro ⟨h1, h2⟩ op vars hm
    rcases List.mem_append.1 hm with hm | hm
    · exact h1 op vars hm
    · exact h2 op vars hm

theorem reg_userinfo {S : Spec} (c : Char) (h : regnameC S c = true) : userinfoC S c = true := by
  simp only [regnameC] at h; simp only [userinfoC, h, Bool.true_or]

theorem reg_pchar {S : Spec} (c : Char) (h : regnameC S c = true) : pcharC S c = true := by
  simp only [regnameC] at h; simp only [pcharC, h, Bool.true_or]

theorem reg_slash {S : Spec} (c : Char) (h : regnameC S c = true) : pcharSlashC S c = true := by
  simp only [pcharSlashC, reg_pchar c h, Bool.true_or]

theorem reg_query {S : Spec} (c : Char) (h : regnameC S c = true) : queryC S c = true := by
  simp only [queryC, reg_pchar c h, Bool.true_or]

theorem reg_frag {S : Spec} (c : Char) (h : regnameC S c = true) : fragC S c = true := by
  simp only [fragC, reg_pchar c h, Bool.true_or]

theorem no_expr_sample {t : List Piece} (h : ∀ op vars, Piece.expr op vars ∉ t) (S : Spec) (dbg : Bool)
    (val : Str → Value) {x : Str} (hx : expansionExact S dbg val t = some x) : x = sample t := by
  induction t generalizing x with
  | nil => rw [expansionExact_nil] at hx; exact hx
  | cons p t ih =>
    rw [expansionExact_cons] at hx
    obtain ⟨y, z, hy, hz, rfl⟩ := hx
    cases p with
    | lit s =>
      simp [pieceExact] at hy
      subst hy
      rw [ih (fun op vars hm => h op vars (by simp [hm])) hz]
      simp [sample]
    | expr op vars => exact absurd (by simp) (h op vars)

theorem host_expansion {S : Spec} {dbg : Bool} {val : Str → Value} {t : List Piece} {x : Str}
    (ha : Accepted t) (ho : Encoded t) (hs : host S (sample t)) (h : expansionExact S dbg val t = some x) :
    host S x := by
  by_cases hr : PC (regnameC S) (sample t)
  · exact (host_iff' x).2 (.inr (pc_expansion (fun c hc => hc) ha ho hr h))
  · have hi : IP_literal (sample t) := by
      rcases (host_iff' (sample t)).1 hs with h | h
      · exact (ip_literal_iff _).2 h
      · exact absurd h hr
    have : ∀ op vars, Piece.expr op vars ∉ t := by
      intro op vars hm
      have : '%' ∈ sample t := by
        simp only [sample, List.mem_flatMap]
        exact ⟨_, hm, by simp⟩
      exact (ip_literal_mem hi this).2 rfl
    rw [no_expr_sample this S dbg val h]
    exact hs

/-! ## The theorem -/

section

variable {S : Spec} {dbg : Bool} {ctx : Ctx} {T : TemplateParts} {out : Str}

theorem parts_of_template (hf : T.Fits S) (ha : Accepted T.pieces) (h : Expands S dbg ctx T.pieces out) :
    ∃ p : Parts, T.ExpandsTo (Expands S dbg ctx) p ∧ out = p.recompose ∧ (PathFits p → p.Valid S) := by
  have ho : Encoded T.pieces := hf.encoded
  unfold TemplateParts.pieces at ha h ho
  obtain ⟨a1, a2⟩ := accepted_append.1 ha
  obtain ⟨a2, a3⟩ := accepted_append.1 a2
  obtain ⟨a3, a4⟩ := accepted_append.1 a3
  obtain ⟨a4, a5⟩ := accepted_append.1 a4
  obtain ⟨o1, o2⟩ := encoded_append.1 ho
  obtain ⟨o2, o3⟩ := encoded_append.1 o2
  obtain ⟨o3, o4⟩ := encoded_append.1 o3
  obtain ⟨o4, o5⟩ := encoded_append.1 o4
  obtain ⟨x1, y1, h1, g1, rfl⟩ := expands_append ha h
  obtain ⟨x2, y2, h2, g2, rfl⟩ := expands_append (accepted_append.1 ha).2 g1
  obtain ⟨x3, y3, h3, g3, rfl⟩ := expands_append (accepted_append.2 ⟨a3, accepted_append.2 ⟨a4, a5⟩⟩) g2
  obtain ⟨x4, x5, h4, h5, rfl⟩ := expands_append (accepted_append.2 ⟨a4, a5⟩) g3
  have e1 := expands_literally a1 h1
  subst e1
  -- authority
  obtain ⟨pa, ea, hta, hva⟩ : ∃ pa : Option Str, x2 = optSuf ['/', '/'] pa ∧
      (match T.authority with
        | none => pa = none
        | some a => ∃ u h, pa = some (AuthParts.recompose ⟨u, h, a.port⟩) ∧
          Expands S dbg ctx a.userinfoPieces (optPre u ['@']) ∧ Expands S dbg ctx a.host h) ∧
      ∀ x, pa = some x → Rfc.authority S x := by
    unfold TemplateParts.authorityPieces at h2 a2 o2
    cases hA : T.authority with
    | none =>
      rw [hA] at h2 a2
      have := (expansionExact_nil S dbg _).1 (expands_exact a2 h2)
      subst this
      exact ⟨none, rfl, rfl, by simp⟩
    | some A =>
      rw [hA] at h2 a2 o2
      simp only at h2 a2 o2
      obtain ⟨b1, b2⟩ := accepted_append.1 a2
      obtain ⟨q1, q2⟩ := encoded_append.1 o2
      obtain ⟨z1, z2, n1, n2, rfl⟩ := expands_append a2 h2
      have := expands_literally b1 n1
      subst this
      unfold TemplateAuth.pieces at n2 b2 q2
      obtain ⟨c1, c2⟩ := accepted_append.1 b2
      obtain ⟨c2, c3⟩ := accepted_append.1 c2
      obtain ⟨r1, r2⟩ := encoded_append.1 q2
      obtain ⟨r2, r3⟩ := encoded_append.1 r2
      obtain ⟨w1, w2, k1, k2, rfl⟩ := expands_append b2 n2
      obtain ⟨w2, w3, k4, k3, rfl⟩ := expands_append (accepted_append.2 ⟨c2, c3⟩) k2
      have := expands_literally c3 k3
      subst this
      obtain ⟨u, rfl, hu⟩ : ∃ u, w1 = optPre u ['@'] ∧ ∀ x, u = some x → Rfc.userinfo S x := by
        unfold TemplateAuth.userinfoPieces at k1 c1 r1
        cases hU : A.userinfo with
        | none =>
          rw [hU] at k1 c1
          exact ⟨none, (expansionExact_nil S dbg _).1 (expands_exact c1 k1), by simp⟩
        | some t =>
          rw [hU] at k1 c1 r1
          simp only at k1 c1 r1
          obtain ⟨d1, d2⟩ := accepted_append.1 c1
          obtain ⟨z, z', m1, m2, rfl⟩ := expands_append c1 k1
          have := expands_literally d2 m2
          subst this
          refine ⟨some z, rfl, ?_⟩
          rintro x ⟨⟩
          have hs := hf.userinfo A t hA hU
          rw [userinfo_iff] at hs ⊢
          exact pc_expansion reg_userinfo d1 (encoded_append.1 r1).1 hs (expands_exact d1 m1)
      refine ⟨some (AuthParts.recompose ⟨u, w2, A.port⟩), by simp [optSuf, AuthParts.recompose],
        ⟨u, w2, rfl, k1, k4⟩, ?_⟩
      rintro x ⟨⟩
      exact (authority_auth_parts S _).2 ⟨_, ⟨hu, host_expansion c2 r2 (hf.host A hA) (expands_exact c2 k4),
        fun x hx => hf.port A x hA hx⟩, rfl⟩
  subst ea
  -- query
  obtain ⟨q, rfl, hq⟩ : ∃ q, x4 = optSuf ['?'] q ∧ ∀ x, q = some x → Rfc.query S x := by
    cases hQ : T.query with
    | absent =>
      rw [hQ] at h4 a4
      exact ⟨none, (expansionExact_nil S dbg _).1 (expands_exact a4 h4), by simp⟩
    | after t =>
      rw [hQ] at h4 a4 o4
      obtain ⟨b1, b2⟩ := accepted_append.1 a4
      obtain ⟨z, z', m1, m2, rfl⟩ := expands_append a4 h4
      have := expands_literally b1 m1
      subst this
      refine ⟨some z', rfl, ?_⟩
      rintro x ⟨⟩
      have hs := hf.query t hQ
      rw [query_iff] at hs ⊢
      exact pc_expansion reg_query b2 (encoded_append.1 o4).2 hs (expands_exact b2 m2)
    | expr vars =>
      rw [hQ] at h4 a4 o4
      have he := expands_exact a4 h4
      simp only [TemplateQuery.pieces] at he a4
      rw [expansionExact_cons] at he
      obtain ⟨y, z, hy, hz, rfl⟩ := he
      rw [expansionExact_nil] at hz
      subst hz
      have hw := a4 _ (List.mem_singleton.2 rfl)
      rcases exprExact_form (by decide) (by decide) (fun v hv => (hw.2.2 v hv).1) hy with rfl | ⟨w, rfl, hw⟩
      · exact ⟨none, rfl, by simp⟩
      · refine ⟨some w, by simp [optSuf, row], ?_⟩
        rintro x ⟨⟩
        rw [query_iff]
        refine hw.mono fun c hc => ?_
        simp only [restC, Bool.or_eq_true, List.contains_iff_mem] at hc
        rcases hc with hc | hc
        · exact reg_query c hc
        · simp [row] at hc; subst hc
          exact reg_query _ (by simp [regnameC, sub_delims])
  -- fragment
  obtain ⟨f, rfl, hfr⟩ : ∃ f, x5 = optSuf ['#'] f ∧ ∀ x, f = some x → Rfc.fragment S x := by
    unfold TemplateParts.fragmentPieces at h5 a5 o5
    cases hF : T.fragment with
    | none =>
      rw [hF] at h5 a5
      exact ⟨none, (expansionExact_nil S dbg _).1 (expands_exact a5 h5), by simp⟩
    | some t =>
      rw [hF] at h5 a5 o5
      obtain ⟨b1, b2⟩ := accepted_append.1 a5
      obtain ⟨z, z', m1, m2, rfl⟩ := expands_append a5 h5
      have := expands_literally b1 m1
      subst this
      refine ⟨some z', rfl, ?_⟩
      rintro x ⟨⟩
      have hs := hf.fragment t hF
      rw [fragment_iff] at hs ⊢
      exact pc_expansion reg_frag b2 (encoded_append.1 o5).2 hs (expands_exact b2 m2)
  refine ⟨⟨T.scheme, pa, x3, q, f⟩, ⟨rfl, hta, h3, h4, h5⟩, rfl, ?_⟩
  rintro ⟨p1, p2, p3⟩
  refine ⟨fun x hx => hf.scheme x hx, hva, ?_, hq, hfr, p1, p2, p3⟩
  have hs := hf.path
  rw [path_iff] at hs ⊢
  exact pc_expansion reg_slash a3 o3 hs (expands_exact a3 h3)

/-- Without literal colons there are no colons. -/
theorem no_colon_expansion {val : Str → Value} {a : List Piece} {xa : Str} (hca : Piece.lit [':'] ∉ a)
    (aa : Accepted a) (oa : Encoded a) (hxa : expansionExact S dbg val a = some xa) : ':' ∉ xa := by
  induction a generalizing xa with
  | nil => rw [expansionExact_nil] at hxa; subst hxa; simp
  | cons q a ih =>
    rw [expansionExact_cons] at hxa
    obtain ⟨y, z, hy, hz, rfl⟩ := hxa
    have hz := ih (fun h => hca (by simp [h])) (fun q hq => aa q (by simp [hq]))
      (fun o v hq => oa o v (by simp [hq])) hz
    rw [List.mem_append]
    rintro (hm | hm)
    · cases q with
      | lit s =>
        simp [pieceExact] at hy
        subst hy
        have hl : asciiLiterals s := aa (.lit s) (by simp)
        rcases hl with ⟨c, rfl, _⟩ | hl
        · simp at hm
          subst hm
          exact hca (by simp)
        · obtain ⟨_, _, rfl, rfl, _, _, rfl, ⟨a, rfl, ha⟩, ⟨b, rfl, hb⟩⟩ := hl
          have h1 : HEXDIG ':' = false := by decide
          simp at hm
          rcases hm with rfl | rfl
          · rw [h1] at ha; cases ha
          · rw [h1] at hb; cases hb
      | expr o vars =>
        have hw := aa (.expr o vars) (by simp)
        obtain ⟨o1, o2⟩ := oa o vars (by simp)
        rcases exprExact_form o1 o2 (fun v hv => (hw.2.2 v hv).1) hy with rfl | ⟨w, rfl, hw⟩
        · cases hm
        · rcases List.mem_append.1 hm with hm | hm
          · rcases first_char (op := o) with e | ⟨c, e, _, hc⟩
            · rw [e] at hm; cases hm
            · rw [e] at hm
              simp at hm
              subst hm
              exact absurd hc (by decide)
          · rcases hw.mem hm with h | h | h
            · exact absurd h (by decide)
            · exact absurd h (by decide)
            · simp only [restC, Bool.or_eq_true, List.contains_iff_mem] at h
              have hr : regnameC S ':' = false := by cases S <;> decide
              rcases h with h | h
              · rw [hr] at h; cases h
              · rcases sep_cases (S := S) h with h | ⟨_, h⟩
                · rw [hr] at h; cases h
                · exact absurd h (by decide)
    · exact hz hm

/-- The literals keep the path in its place. -/
theorem anchored_fits (hf : T.Fits S) (ha : Accepted T.pieces) (hn : T.Anchored) {p : Parts}
    (h : T.ExpandsTo (Expands S dbg ctx) p) : PathFits p := by
  obtain ⟨e1, e2, e3, -, -⟩ := h
  have ap : Accepted T.path := fun q hq => ha q (by simp [TemplateParts.pieces, hq])
  have op : Encoded T.path := fun o v hq => hf.encoded o v (by simp [TemplateParts.pieces, hq])
  have hx := expands_exact ap e3
  have hauth : T.authority = none ↔ p.authority = none := by
    cases hA : T.authority with
    | none => rw [hA] at e2; simp only at e2; simp [e2]
    | some A => rw [hA] at e2; obtain ⟨_, _, e2, _⟩ := e2; simp [e2]
  unfold TemplateParts.Anchored at hn
  by_cases hA : T.authority = none
  · rw [if_neg (by simp [hA])] at hn
    have hpA := hauth.1 hA
    refine ⟨fun h => absurd hpA h, fun _ => ?_, fun hsc _ => ?_⟩
    · rcases hn with hn | ⟨sl, s, r, he, hs, _⟩
      · rw [hn] at hx
        have := (expansionExact_nil S dbg _).1 hx
        rw [this]; simp
      · rw [he, expansionExact_append] at hx
        obtain ⟨y, z, hy, hz, hx⟩ := hx
        rw [expansionExact_cons] at hz
        obtain ⟨s', w, hs', hw, rfl⟩ := hz
        simp [pieceExact] at hs'
        subst hs'
        have hl : asciiLiterals s := ap (.lit s) (by rw [he]; simp)
        obtain ⟨c, s', rfl, hc⟩ : ∃ c s', s = c :: s' ∧ c ≠ '/' := by
          rcases hl with ⟨c, rfl, _⟩ | hl
          · exact ⟨c, [], rfl, fun e => hs (by rw [e])⟩
          · obtain ⟨_, _, rfl, rfl, _⟩ := hl
            exact ⟨'%', _, rfl, by decide⟩
        cases sl with
        | false =>
          simp only [Bool.false_eq_true, if_false] at hy
          rw [expansionExact_nil] at hy
          subst hy
          intro t e
          rw [hx] at e
          simp at e
          exact hc e.1
        | true =>
          simp only [if_true] at hy
          have := (expansionExact_literally S dbg _ ['/']).1 hy
          subst this
          intro t e
          rw [hx] at e
          simp at e
          exact hc e.1
    · rcases hn with hn | ⟨sl, s, r, he, hs, hc⟩
      · rw [hn] at hx
        have := (expansionExact_nil S dbg _).1 hx
        rw [this]
        rintro ⟨a, b, e, _⟩
        simp at e
      · rcases hc with rfl | hc | ⟨a, b, hab, hca, hb⟩
        · rw [he, if_pos rfl, expansionExact_append] at hx
          obtain ⟨y, z, hy, _, hx⟩ := hx
          have := (expansionExact_literally S dbg _ ['/']).1 hy
          subst this
          rintro ⟨a, b, e, hn⟩
          rw [hx] at e
          cases a with
          | nil => simp at e
          | cons d a => simp at e; exact hn (by simp [← e.1])
        · exact absurd (e1 ▸ hsc) hc
        · rw [he] at ap op hx
          cases sl with
          | true =>
            rw [if_pos rfl, expansionExact_append] at hx
            obtain ⟨y, z, hy, _, hx⟩ := hx
            have := (expansionExact_literally S dbg _ ['/']).1 hy
            subst this
            rintro ⟨a, b, e, hn⟩
            rw [hx] at e
            cases a with
            | nil => simp at e
            | cons d a => simp at e; exact hn (by simp [← e.1])
          | false =>
            simp only [Bool.false_eq_true, if_false, List.nil_append] at hx ap op
            rw [hab] at hx ap op
            rw [expansionExact_append] at hx
            obtain ⟨xa, xb, hxa, hxb, hx⟩ := hx
            have hna : ':' ∉ xa :=
              no_colon_expansion hca (accepted_append.1 ap).1 (encoded_append.1 op).1 hxa
            have hxb' : xb = [] ∨ ∃ r, xb = '/' :: r := by
              rcases hb with rfl | ⟨b', rfl⟩
              · exact .inl ((expansionExact_nil S dbg _).1 hxb)
              · rw [expansionExact_cons] at hxb
                obtain ⟨y, z, hy, _, rfl⟩ := hxb
                simp [pieceExact] at hy
                subst hy
                exact .inr ⟨z, rfl⟩
            rintro ⟨u, v, e, hn⟩
            rw [hx] at e
            rcases List.append_eq_append_iff.1 e with ⟨w, h1, h2⟩ | ⟨w, h1, h2⟩
            · rcases hxb' with rfl | ⟨r, rfl⟩
              · simp at h2
              · cases w with
                | nil => simp at h2
                | cons d w => simp at h2; exact hn (by rw [h1]; simp [← h2.1])
            · cases w with
              | nil =>
                rcases hxb' with rfl | ⟨r, rfl⟩
                · simp at h2
                · simp at h2
              | cons d w =>
                simp at h2
                exact hna (by rw [h1]; simp [← h2.1])
  · rw [if_pos hA] at hn
    have hpA : p.authority ≠ none := fun e => hA (hauth.2 e)
    refine ⟨fun _ => ?_, fun e => absurd e hpA, fun _ e => absurd e hpA⟩
    obtain ⟨es, r, he, hes, hr⟩ := hn
    rw [he] at hx ap op
    rw [expansionExact_append] at hx
    obtain ⟨y, z, hy, hz, hx⟩ := hx
    have hz' : z = [] ∨ ∃ r, z = '/' :: r := by
      rcases hr with rfl | ⟨b', rfl⟩
      · exact .inl ((expansionExact_nil S dbg _).1 hz)
      · rw [expansionExact_cons] at hz
        obtain ⟨y, z, hy, _, rfl⟩ := hz
        simp [pieceExact] at hy
        subst hy
        exact .inr ⟨z, rfl⟩
    have hy' : y = [] ∨ ∃ r, y = '/' :: r := by
      have aa := (accepted_append.1 ap).1
      clear hx hz hz' he ap op hr
      induction es generalizing y with
      | nil => exact .inl ((expansionExact_nil S dbg _).1 hy)
      | cons q es ih =>
        rw [expansionExact_cons] at hy
        obtain ⟨y, z, hy, hz, rfl⟩ := hy
        obtain ⟨vars, rfl⟩ := hes q (by simp)
        have hw := aa (.expr (some '/') vars) (by simp)
        rcases exprExact_form (by decide) (by decide) (fun v hv => (hw.2.2 v hv).1) hy with rfl | ⟨w, rfl, _⟩
        · exact ih (fun p hp => hes p (by simp [hp])) _ hz (fun q hq => aa q (by simp [hq]))
        · exact .inr ⟨w ++ z, by simp [row]⟩
    rw [hx]
    rcases hy' with rfl | ⟨r, rfl⟩
    · exact hz'
    · exact .inr ⟨r ++ z, rfl⟩

end

/-- **C64**: a template is given by its components, and the sample of each conforms to its grammar rule.
Whatever the context hands out, an expansion that ends well is the recomposition of the expansions of the
components; and provided that the path meets the three constraints of RFC 3986 section 3.3, it is a valid
reference and the accessors return exactly the expansions of the components. -/
theorem C64_components (S : Spec) (dbg : Bool) (ctx : Ctx) (T : TemplateParts) (hf : T.Fits S)
    (ha : Accepted T.pieces) (out : Str) (h : expand_to_string S dbg ctx (text T.pieces) = .ok out) :
    ∃ p : Parts, T.ExpandsTo (fun t x => expand_to_string S dbg ctx (text t) = .ok x) p ∧ out = p.recompose ∧
      (PathFits p → validate_uri_reference S out = some true ∧
        RiReferenceStr.scheme_str out = p.scheme ∧ RiReferenceStr.authority_str out = p.authority ∧
        RiReferenceStr.path_str out = p.path ∧ RiReferenceStr.query_str out = some p.query ∧
        RiReferenceStr.fragment_str out = p.fragment) := by
  obtain ⟨p, h1, rfl, h3⟩ := parts_of_template hf ha h
  refine ⟨p, h1, rfl, fun hp => ?_⟩
  have hv := h3 hp
  have d := hv.delim
  exact ⟨(C02_iri_reference_validation S _).1.2 ((IRI_reference_parts S _).2 ⟨p, hv, rfl⟩), d.extract_scheme_eq,
    d.extract_authority_eq, d.extract_path_eq, d.extract_query_eq, d.extract_fragment_eq⟩

/-- **C64**: if the literals anchor the path, that is unconditional: no value can move text into another
component, or make the result invalid. -/
theorem C64_anchored (S : Spec) (dbg : Bool) (ctx : Ctx) (T : TemplateParts) (hf : T.Fits S) (hn : T.Anchored)
    (ha : Accepted T.pieces) (out : Str) (h : expand_to_string S dbg ctx (text T.pieces) = .ok out) :
    validate_uri_reference S out = some true ∧
    ∃ p : Parts, T.ExpandsTo (fun t x => expand_to_string S dbg ctx (text t) = .ok x) p ∧ out = p.recompose ∧
      RiReferenceStr.scheme_str out = p.scheme ∧ RiReferenceStr.authority_str out = p.authority ∧
      RiReferenceStr.path_str out = p.path ∧ RiReferenceStr.query_str out = some p.query ∧
      RiReferenceStr.fragment_str out = p.fragment := by
  obtain ⟨p, h1, h2, h3⟩ := C64_components S dbg ctx T hf ha out h
  obtain ⟨h3, h4⟩ := h3 (anchored_fits hf ha hn h1)
  exact ⟨h3, p, h1, h2, h4⟩

/-- **C64**: so a template with a literal scheme and authority always expands to a reference with that scheme
and that authority. -/
theorem C64_origin (S : Spec) (dbg : Bool) (ctx : Ctx) (T : TemplateParts) (hf : T.Fits S) (hn : T.Anchored)
    (ha : Accepted T.pieces) (out : Str) (h : expand_to_string S dbg ctx (text T.pieces) = .ok out)
    (host : Str) (hh : T.authority = some ⟨none, literally host, none⟩) :
    RiReferenceStr.scheme_str out = T.scheme ∧ RiReferenceStr.authority_str out = some host := by
  obtain ⟨_, p, ⟨e1, e2, -⟩, -, h1, h2, -⟩ := C64_anchored S dbg ctx T hf hn ha out h
  rw [hh] at e2
  obtain ⟨u, x, e2, e3, e4⟩ := e2
  have a1 : Accepted (literally host) := fun q hq => ha q (by
    simp [TemplateParts.pieces, TemplateParts.authorityPieces, TemplateAuth.pieces, hh, hq])
  have hx := expands_literally (S := S) (dbg := dbg) (ctx := ctx) a1 e4
  have hu : optPre u ['@'] = [] :=
    (expansionExact_nil S dbg _).1 (expands_exact (S := S) (dbg := dbg) (ctx := ctx) (t := []) (by intro q hq; cases hq) e3)
  have hu' : u = none := by
    cases u with
    | none => rfl
    | some u => simp [optPre] at hu
  refine ⟨h1.trans e1, ?_⟩
  rw [h2, e2, hx, hu']
  simp [AuthParts.recompose, optPre, optSuf]

/-! ## Every template whose sample is a reference is of this kind -/

/-- The operators that write no delimiter of the generic syntax. -/
def Inner (t : List Piece) : Prop :=
  ∀ op vars, Piece.expr op vars ∈ t → op = none ∨ op = some '.' ∨ op = some ';' ∨ op = some '&'

theorem inner_append {a b : List Piece} : Inner (a ++ b) ↔ Inner a ∧ Inner b := by
  constructor
  · intro h
    exact ⟨fun op vars hm => h op vars (by simp [hm]), fun op vars hm => h op vars (by simp [hm])⟩
  · rintro ⟨h1, h2⟩ op vars hm
    rcases List.mem_append.1 hm with hm | hm
    · exact h1 op vars hm
    · exact h2 op vars hm

theorem sample_append (a b : List Piece) : sample (a ++ b) = sample a ++ sample b := by
  simp [sample]

theorem sample_literally (s : Str) : sample (literally s) = s := by
  induction s with
  | nil => rfl
  | cons c s ih => simpa [sample, literally] using ih

theorem sample_cons (p : Piece) (t : List Piece) : sample (p :: t) = sample [p] ++ sample t :=
  sample_append [p] t

/-- A delimiter comes from a literal. -/
theorem sample_delim {p : Piece} (hp : p.WF asciiLiterals varnameX maxLengthX) (hi : Inner [p]) {d : Char}
    (hd : gen_delims d = true) (hm : d ∈ sample [p]) : p = .lit [d] := by
  cases p with
  | lit s =>
    rcases hp with ⟨c, rfl, _⟩ | hp
    · simp [sample] at hm; rw [hm]
    · obtain ⟨_, _, rfl, rfl, _, _, rfl, ⟨a, rfl, ha⟩, ⟨b, rfl, hb⟩⟩ := hp
      simp [sample] at hm
      rw [HEXDIG_eq] at ha hb
      rcases hm with rfl | rfl | rfl
      · exact absurd hd (by decide)
      · have := not_delim_hex ha; rw [hd] at this; simp at this
      · have := not_delim_hex hb; rw [hd] at this; simp at this
  | expr op vars =>
    exfalso
    rcases hi op vars (by simp) with rfl | rfl | rfl | rfl <;>
    · simp [sample, row] at hm
      repeat' rcases hm with rfl | hm
      all_goals first
        | exact absurd hd (by decide)
        | (subst hm; exact absurd hd (by decide))

/-- A sample is cut at a delimiter only between two pieces. -/
theorem sample_split {t : List Piece} (ha : Accepted t) (hi : Inner t) {a b : Str} {d : Char}
    (hd : gen_delims d = true) (h : sample t = a ++ d :: b) :
    ∃ t1 t2, t = t1 ++ .lit [d] :: t2 ∧ sample t1 = a ∧ sample t2 = b := by
  induction t generalizing a with
  | nil => simp [sample] at h
  | cons p t ih =>
    have hp := ha p (by simp)
    have ha' : Accepted t := fun q hq => ha q (by simp [hq])
    have hi' : Inner t := fun o v hq => hi o v (by simp [hq])
    have hi1 : Inner [p] := fun o v hq => hi o v (by simp [List.mem_singleton.1 hq])
    rw [sample_cons] at h
    rcases List.append_eq_append_iff.1 h with ⟨w, h1, h2⟩ | ⟨w, h1, h2⟩
    · obtain ⟨t1, t2, rfl, e1, e2⟩ := ih ha' hi' h2
      exact ⟨p :: t1, t2, rfl, by rw [sample_cons, e1, h1], e2⟩
    · cases w with
      | nil =>
        simp only [List.append_nil] at h1
        simp only [List.nil_append] at h2
        obtain ⟨t1, t2, rfl, e1, e2⟩ := ih (a := []) ha' hi' h2.symm
        exact ⟨p :: t1, t2, rfl, by rw [sample_cons, e1, h1, List.append_nil], e2⟩
      | cons e w =>
        simp only [List.cons_append, List.cons.injEq] at h2
        obtain ⟨rfl, h2⟩ := h2
        have hm : d ∈ sample [p] := by rw [h1]; simp
        have := sample_delim hp hi1 hd hm
        subst this
        have hw : a = [] ∧ w = [] := by
          cases a with
          | nil => simp [sample] at h1; exact ⟨rfl, h1⟩
          | cons x a => simp [sample] at h1
        obtain ⟨rfl, rfl⟩ := hw
        exact ⟨[], t, rfl, rfl, by simpa using h2.symm⟩

/-- A sample without percent signs has no expressions. -/
theorem sample_plain {t : List Piece} (ha : Accepted t) (h : '%' ∉ sample t) : t = literally (sample t) := by
  induction t with
  | nil => rfl
  | cons p t ih =>
    have hp := ha p (by simp)
    rw [sample_cons, List.mem_append] at h
    have h1 : '%' ∉ sample [p] := fun e => h (.inl e)
    have h2 : '%' ∉ sample t := fun e => h (.inr e)
    rw [sample_cons]
    have := ih (fun q hq => ha q (by simp [hq])) h2
    cases p with
    | lit s =>
      rcases hp with ⟨c, rfl, _⟩ | hp
      · conv => lhs; rw [this]
        simp [literally, sample]
      · obtain ⟨_, _, rfl, rfl, _⟩ := hp
        exact absurd (by simp [sample]) h1
    | expr op vars => exact absurd (by simp [sample]) h1

/-- **C64**: every accepted template (with the operators that write no generic delimiter) whose sample is a
valid reference is the composition of component templates that fit, and their samples are the components of
the sample. -/
theorem C64_every_template (S : Spec) (t : List Piece) (ha : Accepted t)
    (ho : ∀ op vars, Piece.expr op vars ∈ t → op = none ∨ op = some '.' ∨ op = some ';' ∨ op = some '&')
    (hv : validate_uri_reference S (sample t) = some true) :
    ∃ T : TemplateParts, T.pieces = t ∧ T.Fits S ∧
      T.scheme = RiReferenceStr.scheme_str (sample t) ∧
      T.authority.map (fun a => sample a.pieces) = RiReferenceStr.authority_str (sample t) ∧
      sample T.path = RiReferenceStr.path_str (sample t) ∧
      some (sample T.query.pieces) = (RiReferenceStr.query_str (sample t)).map (optSuf ['?']) ∧
      T.fragment.map sample = RiReferenceStr.fragment_str (sample t) := by
  obtain ⟨p, hp, hr⟩ := reference_parts hv
  have hi : Inner t := ho
  have hacc : RiReferenceStr.scheme_str (sample t) = p.scheme ∧ RiReferenceStr.authority_str (sample t) = p.authority ∧
      RiReferenceStr.path_str (sample t) = p.path ∧ RiReferenceStr.query_str (sample t) = some p.query ∧
      RiReferenceStr.fragment_str (sample t) = p.fragment := by
    rw [← hr]
    have d := hp.delim
    exact ⟨d.extract_scheme_eq, d.extract_authority_eq, d.extract_path_eq, d.extract_query_eq, d.extract_fragment_eq⟩
  obtain ⟨q1, q2, q3, q4, q5⟩ := hacc
  rw [q1, q2, q3, q4, q5]
  -- the fragment
  obtain ⟨t1, fr, e1, a1, i1, s1, f1⟩ : ∃ t1 fr, t = t1 ++ (match fr with
      | some f => literally ['#'] ++ f | none => []) ∧ Accepted t1 ∧ Inner t1 ∧
      sample t1 = optPre p.scheme [':'] ++ (optSuf ['/', '/'] p.authority ++ (p.path ++ optSuf ['?'] p.query)) ∧
      fr.map sample = p.fragment := by
    cases hf : p.fragment with
    | none =>
      refine ⟨t, none, by simp, ha, hi, ?_, rfl⟩
      rw [← hr, Parts.recompose, hf]; simp [optSuf]
    | some f =>
      have : sample t = (optPre p.scheme [':'] ++ (optSuf ['/', '/'] p.authority ++ (p.path ++ optSuf ['?'] p.query)))
          ++ '#' :: f := by
        rw [← hr, Parts.recompose, hf]; simp [optSuf]
      obtain ⟨t1, t2, rfl, e1, e2⟩ := sample_split ha hi (by decide) this
      exact ⟨t1, some t2, by simp [literally], (accepted_append.1 ha).1, (inner_append.1 hi).1, e1, by simp [e2]⟩
  -- the query
  obtain ⟨t2, qr, e2, a2, i2, s2, f2, hqn⟩ : ∃ t2 qr, t1 = t2 ++ TemplateQuery.pieces qr ∧ Accepted t2 ∧ Inner t2 ∧
      sample t2 = optPre p.scheme [':'] ++ (optSuf ['/', '/'] p.authority ++ p.path) ∧
      sample qr.pieces = optSuf ['?'] p.query ∧ ∀ vars, qr ≠ .expr vars := by
    cases hf : p.query with
    | none =>
      refine ⟨t1, .absent, by simp [TemplateQuery.pieces], a1, i1, ?_, rfl, by simp⟩
      rw [s1, hf]; simp [optSuf]
    | some f =>
      have : sample t1 = (optPre p.scheme [':'] ++ (optSuf ['/', '/'] p.authority ++ p.path)) ++ '?' :: f := by
        rw [s1, hf]; simp [optSuf]
      obtain ⟨t2, t3, rfl, e1, e2⟩ := sample_split a1 i1 (by decide) this
      refine ⟨t2, .after t3, by simp [literally, TemplateQuery.pieces], (accepted_append.1 a1).1,
        (inner_append.1 i1).1, e1, ?_, by simp⟩
      simp [TemplateQuery.pieces, sample_append, sample_literally, optSuf, e2]
  -- the scheme
  obtain ⟨t3, e3, a3, i3, s3⟩ : ∃ t3, t2 = literally (optPre p.scheme [':']) ++ t3 ∧ Accepted t3 ∧ Inner t3 ∧
      sample t3 = optSuf ['/', '/'] p.authority ++ p.path := by
    cases hf : p.scheme with
    | none => exact ⟨t2, rfl, a2, i2, by rw [s2, hf]; simp [optPre]⟩
    | some x =>
      have : sample t2 = x ++ ':' :: (optSuf ['/', '/'] p.authority ++ p.path) := by
        rw [s2, hf]; simp [optPre]
      obtain ⟨t3, t4, rfl, e1, e2⟩ := sample_split a2 i2 (by decide) this
      refine ⟨t4, ?_, fun q hq => a2 q (by simp [hq]), fun o v hq => i2 o v (by simp [hq]), e2⟩
      have hx := sample_plain (accepted_append.1 a2).1 (by
        rw [e1]; exact scheme_not_mem (hp.scheme x hf) (by decide))
      rw [e1] at hx
      rw [hx]
      simp [literally, optPre]
  -- the authority and the path
  obtain ⟨A, pt, e4, s4, s5, hfit⟩ : ∃ (A : Option TemplateAuth) (pt : List Piece),
      t3 = (match A with | some a => literally ['/', '/'] ++ a.pieces | none => []) ++ pt ∧
      A.map (fun a => sample a.pieces) = p.authority ∧ sample pt = p.path ∧
      ∀ a, A = some a → (∀ u, a.userinfo = some u → Rfc.userinfo S (sample u)) ∧ Rfc.host S (sample a.host) ∧
        ∀ x, a.port = some x → Rfc.port x := by
    cases hf : p.authority with
    | none =>
      refine ⟨none, t3, rfl, rfl, ?_, by simp⟩
      rw [s3, hf]; simp [optSuf]
    | some x =>
      rw [hf] at s3
      have : sample t3 = [] ++ '/' :: ('/' :: x ++ p.path) := by rw [s3]; simp [optSuf]
      obtain ⟨t4, t5, rfl, k1, k2⟩ := sample_split a3 i3 (by decide) this
      have a5 : Accepted t5 := fun q hq => a3 q (by simp [hq])
      have i5 : Inner t5 := fun o v hq => i3 o v (by simp [hq])
      have k1' : t4 = [] := by
        have := sample_plain (accepted_append.1 a3).1 (by rw [k1]; simp)
        rw [k1] at this; exact this
      subst k1'
      obtain ⟨t6, t7, rfl, k3, k4⟩ := sample_split a5 i5 (a := []) (b := x ++ p.path) (d := '/') (by decide)
        (by rw [k2]; simp)
      have a7 : Accepted t7 := fun q hq => a5 q (by simp [hq])
      have i7 : Inner t7 := fun o v hq => i5 o v (by simp [hq])
      have k3' : t6 = [] := by
        have := sample_plain (accepted_append.1 a5).1 (by rw [k3]; simp)
        rw [k3] at this; exact this
      subst k3'
      obtain ⟨t8, pt, rfl, a8, i8, k5, k6⟩ : ∃ t8 pt, t7 = t8 ++ pt ∧ Accepted t8 ∧ Inner t8 ∧ sample t8 = x ∧
          sample pt = p.path := by
        rcases hp.withAuthority (by simp [hf]) with e | ⟨r, e⟩
        · exact ⟨t7, [], by simp, a7, i7, by rw [k4, e]; simp, by rw [e]; rfl⟩
        · obtain ⟨t8, t9, rfl, k5, k6⟩ := sample_split a7 i7 (a := x) (b := r) (d := '/') (by decide)
            (by rw [k4, e])
          refine ⟨t8, .lit ['/'] :: t9, rfl, (accepted_append.1 a7).1, (inner_append.1 i7).1, k5, ?_⟩
          rw [sample_cons, k6, e]; rfl
      obtain ⟨au, hau, hre⟩ := (authority_auth_parts S x).1 (hp.authority x hf)
      -- the userinfo
      obtain ⟨us, t9, e5, a9, i9, k7, k8⟩ : ∃ (us : Option (List Piece)) (t9 : List Piece), t8 = (match us with
          | some u => u ++ literally ['@'] | none => []) ++ t9 ∧ Accepted t9 ∧ Inner t9 ∧
          us.map sample = au.userinfo ∧ sample t9 = au.host ++ optSuf [':'] au.port := by
        cases hu : au.userinfo with
        | none =>
          refine ⟨none, t8, rfl, a8, i8, rfl, ?_⟩
          rw [k5, ← hre, AuthParts.recompose, hu]; rfl
        | some u =>
          have : sample t8 = u ++ '@' :: (au.host ++ optSuf [':'] au.port) := by
            rw [k5, ← hre, AuthParts.recompose, hu]; simp [optPre]
          obtain ⟨u1, u2, rfl, m1, m2⟩ := sample_split a8 i8 (by decide) this
          exact ⟨some u1, u2, by simp [literally], fun q hq => a8 q (by simp [hq]),
            fun o v hq => i8 o v (by simp [hq]), by simp [m1], m2⟩
      -- host and port
      obtain ⟨ho, e6, k9⟩ : ∃ ho, t9 = ho ++ literally (optSuf [':'] au.port) ∧ sample ho = au.host := by
        cases hu : au.port with
        | none =>
          refine ⟨t9, by simp [optSuf, literally], ?_⟩
          rw [k8, hu]; simp [optSuf]
        | some n =>
          obtain ⟨u1, u2, rfl, m1, m2⟩ := sample_split a9 i9 (a := au.host) (b := n) (d := ':') (by decide)
            (by rw [k8, hu]; simp [optSuf])
          refine ⟨u1, ?_, m1⟩
          have hx := sample_plain (t := u2) (fun q hq => a9 q (by simp [hq])) (by
            rw [m2]
            have := (port_iff n).1 (hau.port n hu)
            intro hm
            simp only [validate_port, List.all_eq_true] at this
            exact absurd (this _ hm) (by decide))
          rw [m2] at hx
          rw [hx]
          simp [literally, optSuf]
      refine ⟨some ⟨us, ho, au.port⟩, pt, ?_, ?_, k6, ?_⟩
      · rw [e5, e6]
        simp only [literally, TemplateAuth.pieces, TemplateAuth.userinfoPieces, List.map_cons, List.map_nil,
          List.nil_append, List.cons_append, List.append_assoc]
        cases us <;> rfl
      · simp only [Option.map_some, Option.some.injEq]
        rw [← k5, e5, e6]
        simp only [TemplateAuth.pieces, TemplateAuth.userinfoPieces]
        cases us <;> rfl
      · rintro a ⟨⟩
        refine ⟨fun u hu => ?_, k9 ▸ hau.host, fun x hx => hau.port x hx⟩
        simp only at hu
        rw [hu] at k7
        exact hau.userinfo _ k7.symm
  have hT : TemplateParts.pieces ⟨p.scheme, A, pt, qr, fr⟩ = t := by
    rw [e1, e2, e3, e4]
    simp only [TemplateParts.pieces, TemplateParts.authorityPieces, TemplateParts.fragmentPieces, List.append_assoc]
    cases A <;> cases fr <;> rfl
  refine ⟨⟨p.scheme, A, pt, qr, fr⟩, hT, ⟨hp.scheme, fun a u hA hu => (hfit a hA).1 u hu,
    fun a hA => (hfit a hA).2.1, fun a x hA hx => (hfit a hA).2.2 x hx, s5 ▸ hp.path,
    ?_, ?_, ?_⟩, rfl, s4, s5, ?_, f1⟩
  · intro q hq
    simp only at hq
    subst hq
    cases hf : p.query with
    | none => rw [hf] at f2; simp [TemplateQuery.pieces, sample, literally, optSuf] at f2
    | some f =>
      rw [hf] at f2
      simp only [TemplateQuery.pieces, sample_append, sample_literally, optSuf, List.cons_append, List.nil_append,
        List.cons.injEq, true_and] at f2
      rw [f2]
      exact hp.query f hf
  · intro f hfr
    simp only at hfr
    subst hfr
    exact hp.fragment _ f1.symm
  · intro op vars hm
    rw [hT] at hm
    rcases ho op vars hm with rfl | rfl | rfl | rfl <;> decide
  · simp only [Option.map_some, f2]

/-! ### Concrete cases -/

/-- `http://{u}@h.example:80/a{/s*}{?q,r}#{f}`. -/
def componentsExample : TemplateParts where
  scheme := some (chars! "http")
  authority := some ⟨some [.expr none [⟨['u'], .none⟩]], literally (chars! "h.example"), some (chars! "80")⟩
  path := literally (chars! "/a") ++ [.expr (some '/') [⟨['s'], .explode⟩]]
  query := .expr [⟨['q'], .none⟩, ⟨['r'], .none⟩]
  fragment := some [.expr none [⟨['f'], .none⟩]]

theorem accepted_chars {t : List Piece}
    (h : t.all (fun p => match p with
      | .lit [c] => literalChar c
      | .lit _ => false
      | .expr op vars => (op.all isOp) && !vars.isEmpty && vars.all fun v =>
          (match v.name with | [c] => varcharPlain c | _ => false) && (v.mod == .none || v.mod == .explode)) = true) :
    Accepted t := by
  intro p hp
  have h := List.all_eq_true.1 h p hp
  cases p with
  | lit s =>
    match s, h with
    | [c], h => exact .inl ⟨c, rfl, h⟩
  | expr op vars =>
    simp only [Bool.and_eq_true, Bool.not_eq_true', List.isEmpty_eq_false_iff, List.all_eq_true] at h
    refine ⟨fun c hc => by subst hc; simpa using h.1.1, h.1.2, fun v hv => ?_⟩
    obtain ⟨n, m⟩ := v
    have hv := h.2 _ hv
    obtain ⟨h1, h2⟩ := hv
    match n, h1 with
    | [c], h1 =>
      refine ⟨⟨[c], [], rfl, .inl ⟨c, rfl, h1⟩, star_nil _⟩, ?_⟩
      cases m with
      | pre ds => simp at h2
      | none => trivial
      | explode => trivial

theorem componentsExample_accepted : Accepted componentsExample.pieces :=
  accepted_chars (by decide +kernel)

theorem componentsExample_fits : componentsExample.Fits .uri where
  scheme := by rintro x ⟨⟩; exact (C05_scheme _).1 (by decide +kernel)
  userinfo := by rintro a u ⟨⟩ ⟨⟩; exact (C05_userinfo _ _).1 (by decide +kernel)
  host := by rintro a ⟨⟩; exact (host_iff _ _).2 (by decide +kernel)
  port := by rintro a x ⟨⟩ ⟨⟩; exact (C05_port _).1 (by decide +kernel)
  path := (C05_path _ _).1 (by decide +kernel)
  query := by intro t h; cases h
  fragment := by rintro t ⟨⟩; exact (C05_fragment _ _).1 (by decide +kernel)
  encoded := by
    intro op vars hm
    have : componentsExample.pieces.all (fun p => match p with
      | .lit _ => true | .expr op _ => op != some '+' && op != some '#') = true := by decide +kernel
    simpa using List.all_eq_true.1 this _ hm

theorem componentsExample_anchored : componentsExample.Anchored := by
  unfold TemplateParts.Anchored
  rw [if_pos (by simp [componentsExample])]
  exact ⟨[], _, rfl, by simp, .inr ⟨_, rfl⟩⟩

/-- Values full of delimiters. -/
def componentsCtx : Ctx := fun _ n =>
  if n = ['u'] then .string [chars! "evil.example/@"]
  else if n = ['s'] then .list [[chars! "../x"], [chars! "?#"]]
  else if n = ['q'] then .string [chars! "a&b=#c"]
  else if n = ['f'] then .string [chars! "#?"]
  else .undefined

example : text componentsExample.pieces = chars! "http://{u}@h.example:80/a{/s*}{?q,r}#{f}" ∧
    expand_to_string .uri true componentsCtx (text componentsExample.pieces) =
      .ok (chars! "http://evil.example%2F%40@h.example:80/a/..%2Fx/%3F%23?q=a%26b%3D%23c#%23%3F") := by
  decide +kernel

/-- The theorem at work. -/
example : RiReferenceStr.scheme_str
    (chars! "http://evil.example%2F%40@h.example:80/a/..%2Fx/%3F%23?q=a%26b%3D%23c#%23%3F") =
      some (chars! "http") := by
  obtain ⟨_, p, ⟨e, -⟩, -, h, -⟩ := C64_anchored .uri true componentsCtx componentsExample componentsExample_fits
    componentsExample_anchored componentsExample_accepted
    (chars! "http://evil.example%2F%40@h.example:80/a/..%2Fx/%3F%23?q=a%26b%3D%23c#%23%3F") (by decide +kernel)
  exact h.trans e

/-- `/{a}/{b}`: the path is not anchored. -/
def unanchoredExample : TemplateParts where
  scheme := none
  authority := none
  path := [.lit ['/'], .expr none [⟨['a'], .none⟩], .lit ['/'], .expr none [⟨['b'], .none⟩]]
  query := .absent
  fragment := none

/-- Anchoring is needed: with an empty value for `a`, the value of `b` becomes the authority. -/
theorem C64_unanchored : unanchoredExample.Fits .uri ∧ Accepted unanchoredExample.pieces ∧
    text unanchoredExample.pieces = chars! "/{a}/{b}" ∧
    ∃ ctx : Ctx, expand_to_string .uri false ctx (chars! "/{a}/{b}") = .ok (chars! "//evil") ∧
      validate_uri_reference .uri (chars! "//evil") = some true ∧
      RiReferenceStr.authority_str (chars! "//evil") = some (chars! "evil") := by
  refine ⟨⟨?_, ?_, ?_, ?_, ?_, ?_, ?_, ?_⟩, accepted_chars (by decide +kernel), by decide +kernel,
    fun _ n => if n = ['a'] then .string [] else .string [chars! "evil"], by decide +kernel, by decide +kernel,
    by decide +kernel⟩
  · intro x h; cases h
  · intro a u h; cases h
  · intro a h; cases h
  · intro a x h; cases h
  · exact (C05_path _ _).1 (by decide +kernel)
  · intro t h; cases h
  · intro t h; cases h
  · intro op vars hm
    have : unanchoredExample.pieces.all (fun p => match p with
      | .lit _ => true | .expr op _ => op != some '+' && op != some '#') = true := by decide +kernel
    simpa using List.all_eq_true.1 this _ hm

/-- `C64_every_template` applies to `mailto:{a}@h.example?subject={s}`. -/
example : ∃ t : List Piece, text t = chars! "mailto:{a}@h.example?subject={s}" ∧ Accepted t ∧
    (∀ op vars, Piece.expr op vars ∈ t → op = none ∨ op = some '.' ∨ op = some ';' ∨ op = some '&') ∧
    sample t = chars! "mailto:%2F@h.example?subject=%2F" ∧ validate_uri_reference .uri (sample t) = some true := by
  refine ⟨literally (chars! "mailto:") ++ [.expr none [⟨['a'], .none⟩]] ++ literally (chars! "@h.example?subject=") ++
    [.expr none [⟨['s'], .none⟩]], by decide +kernel, accepted_chars (by decide +kernel), ?_, by decide +kernel,
    by decide +kernel⟩
  intro op vars hm
  simp [literally] at hm
  rcases hm with hm | hm <;> simp [hm]

end Verif
