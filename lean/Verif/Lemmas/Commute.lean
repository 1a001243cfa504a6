import Verif.Lemmas.ResolveLaws
import Verif.Lemmas.Convert

/-! # Resolution and normalization commute with the mapping of IRIs to URIs -/

namespace Verif

open Rfc PathToNormalize

/-! ### Maps of segment names -/

def mapSegs (f : Str → Str) (L : List PSeg) : List PSeg := L.map fun g => (g.1, f g.2)

section mapSegs
variable {f : Str → Str} {Q : Str → Prop}

theorem mapSegs_pathText (happ : ∀ a b, f (a ++ b) = f a ++ f b) (hs : f ['/'] = ['/'])
    (h0 : f [] = []) (L : List PSeg) : pathText (mapSegs f L) = f (pathText L) := by
  induction L with
  | nil => rw [pathText_nil, h0]; rfl
  | cons g r ih =>
    show pathText ((g.1, f g.2) :: mapSegs f r) = _
    rw [pathText_cons, pathText_cons, ih, segText, segText, happ, happ]
    cases g.1
    · simp [h0]
    · simp [hs]

theorem mapSegs_allSlash (hsl : ∀ n, Q n → '/' ∉ n → '/' ∉ f n) {L : List PSeg}
    (hq : ∀ g ∈ L, Q g.2) (h : AllSlash L) : AllSlash (mapSegs f L) := by
  intro g hg
  obtain ⟨x, hx, rfl⟩ := List.mem_map.1 hg
  exact ⟨(h x hx).1, hsl _ (hq x hx) (h x hx).2⟩

theorem mapSegs_ok (hsl : ∀ n, Q n → '/' ∉ n → '/' ∉ f n) (hne : ∀ n, Q n → (f n = [] ↔ n = []))
    {L : List PSeg} (hq : ∀ g ∈ L, Q g.2) (h : OKSegs L) : OKSegs (mapSegs f L) := by
  cases L with
  | nil => trivial
  | cons g r =>
    refine ⟨hsl _ (hq g (by simp)) h.1, ?_, mapSegs_allSlash hsl (fun x hx => hq x (by simp [hx])) h.2.2⟩
    intro e h2
    exact h.2.1 e ((hne _ (hq g (by simp))).1 h2)

variable (hk : ∀ n, Q n → SegmentKind.from_segment (f n) = SegmentKind.from_segment n)

include hk in
theorem stk_mapSegs {L : List PSeg} (hq : ∀ g ∈ L, Q g.2) : stk (mapSegs f L) = mapSegs f (stk L) := by
  have key : ∀ L : List PSeg, (∀ g ∈ L, Q g.2) → ∀ E,
      (mapSegs f L).foldl stkStep (mapSegs f E) = mapSegs f (L.foldl stkStep E) := by
    intro L
    induction L with
    | nil => intro _ E; rfl
    | cons g r ih =>
      intro hq E
      have hstep : stkStep (mapSegs f E) (g.1, f g.2) = mapSegs f (stkStep E g) := by
        unfold stkStep
        simp only [hk _ (hq g (by simp))]
        cases SegmentKind.from_segment g.2 with
        | dot => rfl
        | dotDot => simp [mapSegs, List.map_dropLast]
        | normal => simp [mapSegs]
      show (mapSegs f r).foldl stkStep (stkStep (mapSegs f E) (g.1, f g.2)) = _
      rw [hstep, List.foldl_cons]
      exact ih (fun x hx => hq x (by simp [hx])) _
  exact key L hq []

include hk in
theorem fin_mapSegs (h0 : f [] = []) {L : List PSeg} (hq : ∀ g ∈ L, Q g.2) :
    fin (mapSegs f L) = mapSegs f (fin L) := by
  unfold fin
  rw [stk_mapSegs hk hq]
  have : endDots (mapSegs f L) = endDots L := by
    unfold endDots mapSegs
    rw [List.getLast?_map]
    cases hl : L.getLast? with
    | none => rfl
    | some g => simp [isDots, hk _ (hq g (List.mem_of_getLast? hl))]
  rw [this]
  split
  · simp [mapSegs, h0]
  · simp [mapSegs]

include hk in
theorem stripRel_mapSegs (hne : ∀ n, Q n → (f n = [] ↔ n = [])) {L : List PSeg}
    (hq : ∀ g ∈ L, Q g.2) : stripRel (mapSegs f L) = mapSegs f (stripRel L) := by
  have hd' : ∀ n, Q n → isDots (false, f n) = isDots (false, n) := by
    intro n h; simp [isDots, hk n h]
  revert hq
  refine stripRel_ind (P := fun L => (∀ g ∈ L, Q g.2) →
    stripRel (mapSegs f L) = mapSegs f (stripRel L)) ?_ ?_ ?_ ?_ ?_ ?_ L
  · intro _; show stripRel [] = mapSegs f (stripRel []); rw [stripRel]; rfl
  · intro n r _
    rw [stripRel_true]
    exact stripRel_true _ _
  · intro n r hd hq
    rw [stripRel_normal hd]
    exact stripRel_normal (by rw [hd' n (hq (false, n) (by simp))]; exact hd)
  · intro n hd hq
    rw [stripRel_end hd]
    exact stripRel_end (by rw [hd' n (hq (false, n) (by simp))]; exact hd)
  · intro n b r hd hq
    rw [stripRel_dots hd, if_pos rfl]
    show stripRel ((false, f n) :: (b, f []) :: mapSegs f r) = _
    rw [stripRel_dots (by rw [hd' n (hq (false, n) (by simp))]; exact hd),
      if_pos ((hne [] (hq (b, []) (by simp))).2 rfl)]
  · intro n b m r hd hm ih hq
    rw [stripRel_dots hd, if_neg hm]
    show stripRel ((false, f n) :: (b, f m) :: mapSegs f r) = _
    rw [stripRel_dots (by rw [hd' n (hq (false, n) (by simp))]; exact hd),
      if_neg (fun h => hm ((hne m (hq (b, m) (by simp))).1 h))]
    refine ih ?_
    intro g hg
    rcases List.mem_cons.1 hg with rfl | hg
    · exact hq (b, m) (by simp)
    · exact hq g (by simp [hg])

end mapSegs

/-! ### The mapping on tokens -/

def mapTok : Tok → List Tok
  | .ch c => if c.toNat < 128 then [.ch c] else (utf8 c).map .pct
  | .pct b => [.pct b]

def mapToks (ts : List Tok) : List Tok := ts.flatMap mapTok

theorem mapToks_cons (t : Tok) (ts : List Tok) : mapToks (t :: ts) = mapTok t ++ mapToks ts := rfl

theorem mapToks_append (a b : List Tok) : mapToks (a ++ b) = mapToks a ++ mapToks b := by
  simp [mapToks]

theorem mapToks_pcts (bs : List Nat) : mapToks (bs.map .pct) = bs.map .pct := by
  induction bs with
  | nil => rfl
  | cons b bs ih => rw [List.map_cons, mapToks_cons, ih]; rfl

theorem tokens_pcts {bs : List Nat} (h : ∀ b ∈ bs, b < 256) (r : Str) :
    tokens (bs.flatMap pctUpper ++ r) = bs.map .pct ++ tokens r := by
  induction bs with
  | nil => rfl
  | cons b bs ih =>
    rw [List.flatMap_cons, List.append_assoc, tokens_pctUpper (h b (by simp)),
      ih fun x hx => h x (by simp [hx])]
    rfl

theorem utf8_lt256 (c : Char) : ∀ b ∈ utf8 c, b < 256 := by
  intro b hb
  exact utf8s_lt [c] b (by simpa [utf8s] using hb)

theorem tokens_mapToUri {s : Str} (h : WF s) : tokens (mapToUri s) = mapToks (tokens s) := by
  induction h with
  | nil => rfl
  | @chr c r h1 _ h3 ih =>
    have e : mapToUri (c :: r) = mapToUri [c] ++ mapToUri r := mapToUri_append [c] r
    rw [e, tokens_ch h1, mapToks_cons, ← ih]
    by_cases hc : c.toNat < 128
    · rw [mapToUri_ascii (s := [c]) (by simpa using hc)]
      simp [tokens_ch h1, mapTok, hc]
    · rw [mapToUri_nonascii (s := [c]) (by simpa using hc), tokens_pcts (utf8s_lt [c])]
      simp [mapTok, hc, utf8s]
  | @pct a b r h1 h2 _ ih =>
    have e : mapToUri ('%' :: a :: b :: r) = mapToUri ['%', a, b] ++ mapToUri r :=
      mapToUri_append ['%', a, b] r
    rw [e, mapToUri_ascii (s := ['%', a, b]), tokens_pct h1 h2, mapToks_cons, ← ih]
    · show tokens ('%' :: a :: b :: mapToUri r) = _
      rw [tokens_pct h1 h2]; rfl
    · intro c hc
      simp at hc
      rcases hc with rfl | rfl | rfl
      · decide
      · exact isHex_lt h1
      · exact isHex_lt h2

theorem pctUpper_ascii {b : Nat} (h : b < 256) : ∀ c ∈ pctUpper b, c.toNat < 128 := by
  intro c hc
  simp [pctUpper] at hc
  rcases hc with rfl | rfl | rfl
  · decide
  · exact isHex_lt (hexUpper_isHex (by omega)).1
  · exact isHex_lt (hexUpper_isHex (by omega)).1

theorem mapToUri_render {ts : List Tok} (h : TokensOK ts) :
    mapToUri (render ts) = render (mapToks ts) := by
  induction ts with
  | nil => rfl
  | cons t ts ih =>
    have h' : TokensOK ts := fun x hx => h x (by simp [hx])
    rw [render_cons, mapToUri_append, ih h', mapToks_cons, render_append]
    congr 1
    cases t with
    | ch c =>
      by_cases hc : c.toNat < 128
      · simp only [mapTok, hc, if_true, Tok.render]
        rw [mapToUri_ascii (by simpa using hc)]
        rfl
      · simp only [mapTok, hc, if_false, Tok.render]
        rw [mapToUri_nonascii (by simpa using hc), render_pcts]
        simp [utf8s]
        rfl
    | pct b =>
      have hb : b < 256 := h (.pct b) (by simp)
      simp only [mapTok, Tok.render]
      rw [mapToUri_ascii (pctUpper_ascii hb)]
      simp [render, Tok.render]

/-! ### Percent-encoding normalization -/

theorem uri_unreserved_ascii {c : Char} (h : iunreserved .uri c = true) : c.toNat < 128 :=
  unreserved_ascii h

theorem utf8_nonascii_ge {c : Char} (h : ¬ c.toNat < 128) : ∀ b ∈ utf8 c, 128 ≤ b :=
  fun b hb => (utf8_nonascii (by omega) b hb).1

theorem PctNorm.keeps {bs : List Nat} (hb : ∀ b ∈ bs, 128 ≤ b) {r t : List Tok}
    (h : PctNorm .uri r t) : PctNorm .uri (bs.map .pct ++ r) (bs.map .pct ++ t) := by
  induction bs with
  | nil => exact h
  | cons b bs ih =>
    refine .keep ?_ (ih fun x hx => hb x (by simp [hx]))
    intro c r' hc e
    have ha := uri_unreserved_ascii hc
    rw [utf8_ascii ha] at e
    simp at e
    have := hb b (by simp)
    omega

theorem PctNorm.mapToks {S : Spec} {r t : List Tok} (h : PctNorm S r t) :
    PctNorm .uri (Verif.mapToks r) (Verif.mapToks t) := by
  induction h with
  | nil => exact .nil
  | @ch c r t _ ih =>
    rw [mapToks_cons, mapToks_cons]
    by_cases hc : c.toNat < 128
    · simp only [mapTok, hc, if_true, List.singleton_append]
      exact .ch ih
    · simp only [mapTok, hc, if_false]
      exact ih.keeps (utf8_nonascii_ge hc)
  | @decode c r t hu _ ih =>
    rw [mapToks_append, mapToks_pcts, mapToks_cons]
    by_cases hc : c.toNat < 128
    · simp only [mapTok, hc, if_true, List.singleton_append]
      exact .decode (by rwa [spec_le S hc] at hu) ih
    · simp only [mapTok, hc, if_false]
      exact ih.keeps (utf8_nonascii_ge hc)
  | @keep b r t hk _ ih =>
    rw [mapToks_cons, mapToks_cons]
    simp only [mapTok, List.singleton_append]
    refine .keep ?_ ih
    intro c r' hc e
    have ha := uri_unreserved_ascii hc
    refine hk c r (by rwa [spec_le S ha]) ?_
    rw [utf8_ascii ha] at e ⊢
    simp at e ⊢
    exact e.1

theorem mapToUri_WF {s : Str} (h : WF s) : WF (mapToUri s) :=
  (PC_mapToUri (p := fun _ => true) (q := fun _ => true) h (fun _ _ _ => rfl)).wf

theorem pctn_map {S : Spec} {s : Str} (h : WF s) :
    pctn .uri (mapToUri s) = mapToUri (pctn S s) := by
  obtain ⟨t, h1, _, h3⟩ := pctn_spec S h
  rw [h3, mapToUri_render (h1.ok (tokens_ok h))]
  refine pctn_eq (mapToUri_WF h) ?_
  rw [tokens_mapToUri h]
  exact h1.mapToks

theorem wr_map {S : Spec} {op : NormalizationMode} {s : Str} (h : WF s) :
    wr .uri op (mapToUri s) = mapToUri (wr S op s) := by
  unfold wr
  split
  · exact pctn_map h
  · rfl

/-! ### Paths -/

theorem mapToUri_empty {s : Str} : mapToUri s = [] ↔ s = [] := by
  constructor
  · intro h
    cases s with
    | nil => rfl
    | cons c r =>
      exfalso
      have e : mapToUri (c :: r) = mapToUri [c] ++ mapToUri r := mapToUri_append [c] r
      rw [e] at h
      have := (List.append_eq_nil_iff.1 h).1
      simp only [mapToUri, List.flatMap_cons, List.flatMap_nil, List.append_nil] at this
      split at this
      · cases this
      · have hne := utf8_ne_nil c
        cases hu : utf8 c with
        | nil => exact absurd hu hne
        | cons b bs => rw [hu, List.flatMap_cons] at this; simp [pctUpper] at this
  · rintro rfl; rfl

theorem mapToUri_no_slash {n : Str} (h : '/' ∉ n) : '/' ∉ mapToUri n := by
  intro hm
  obtain ⟨a, b, e⟩ := List.append_of_mem hm
  obtain ⟨a', b', rfl, _⟩ := mapToUri_cut (by decide) (by decide) (by decide) e
  exact h (by simp)

theorem kind_map {n : Str} (h : WF n) :
    SegmentKind.from_segment (mapToUri n) = SegmentKind.from_segment n := by
  have hd := mapToUri_wf_decode h
  have h1 := from_segment_dot n
  have h2 := from_segment_dotdot n
  have h3 := from_segment_dot (mapToUri n)
  have h4 := from_segment_dotdot (mapToUri n)
  rw [hd] at h3 h4
  cases hk : SegmentKind.from_segment n with
  | dot => exact h3.2 (h1.1 hk)
  | dotDot => exact h4.2 (h2.1 hk)
  | normal =>
    cases hk' : SegmentKind.from_segment (mapToUri n) with
    | dot => rw [h1.2 (h3.1 hk')] at hk; cases hk
    | dotDot => rw [h2.2 (h4.1 hk')] at hk; cases hk
    | normal => rfl

theorem rds_map {s : Str} (h : WF s) : remove_dot_segments (undot (mapToUri s)) =
    mapToUri (remove_dot_segments (undot s)) := by
  obtain ⟨hok, ht⟩ := pathSegs_spec s
  have hq : ∀ g ∈ pathSegs s, WF g.2 := PC_path_names hok (by rw [ht]; exact h)
  have hpt := mapSegs_pathText (f := mapToUri) mapToUri_append (by decide) rfl
  have hok' : OKSegs (mapSegs mapToUri (pathSegs s)) :=
    mapSegs_ok (Q := WF) (fun _ _ => mapToUri_no_slash) (fun _ _ => mapToUri_empty) hq hok
  have e : pathSegs (mapToUri s) = mapSegs mapToUri (pathSegs s) := by
    rw [← pathSegs_unique hok', hpt, ht]
  rw [rds_eq, rds_eq, ← hpt]
  congr 1
  unfold rdsSegs
  rw [e, stripRel_mapSegs (Q := WF) (fun _ => kind_map) (fun _ _ => mapToUri_empty) hq,
    fin_mapSegs (Q := WF) (fun _ => kind_map) rfl (stripRel_names hq)]

theorem map_take1 (s : Str) : (mapToUri s).take 1 = ['/'] ↔ s.take 1 = ['/'] := by
  rw [take1_slash, take1_slash]
  constructor
  · intro h; obtain ⟨r, h, _⟩ := map_slash h; exact ⟨r, h⟩
  · rintro ⟨r, rfl⟩; exact ⟨_, mapToUri_cons_ascii (by decide) r⟩

theorem map_take2 (s : Str) : ((mapToUri s).take 2 == ['/', '/']) = (s.take 2 == ['/', '/']) := by
  rw [Bool.eq_iff_iff, take2_slash, take2_slash]
  constructor
  · rintro ⟨r, h⟩
    obtain ⟨t, h1, h2⟩ := map_slash ⟨_, h⟩
    rw [h2] at h
    obtain ⟨u, h3, _⟩ := map_slash ⟨_, (List.cons.inj h).2⟩
    exact ⟨u, by rw [h1, h3]⟩
  · rintro ⟨r, rfl⟩
    exact ⟨mapToUri r, by rw [mapToUri_cons_ascii (by decide), mapToUri_cons_ascii (by decide)]⟩

theorem escape_map (auth : Bool) (s : Str) : escapePath auth (mapToUri s) = mapToUri (escapePath auth s) := by
  unfold escapePath
  rw [map_take2]
  split
  · rw [mapToUri_cons_ascii (by decide), mapToUri_cons_ascii (by decide)]
  · rfl

theorem pathn_map {S : Spec} {op : NormalizationMode} {auth : Bool} {s : Str} (h : WF s) :
    pathn .uri op auth (mapToUri s) = mapToUri (pathn S op auth s) := by
  unfold pathn
  simp only [ne_eq, mapToUri_empty, map_take1]
  split
  · exact pctn_map h
  · rw [rds_map h, wr_map (S := S) (rds_PC rfl h), escape_map]

/-! ### Authorities -/

theorem all_ascii_of_tokens {s : Str} (h : WF s) (ha : (tokens s).all tokAscii = true) :
    ∀ c ∈ s, c.toNat < 128 := by
  induction h with
  | nil => simp
  | @chr c r h1 _ _ ih =>
    rw [tokens_ch h1] at ha
    simp only [List.all_cons, Bool.and_eq_true] at ha
    intro x hx
    rcases List.mem_cons.1 hx with rfl | hx
    · simpa [tokAscii] using ha.1
    · exact ih ha.2 x hx
  | @pct a b r h1 h2 _ ih =>
    rw [tokens_pct h1 h2] at ha
    simp only [List.all_cons, Bool.and_eq_true] at ha
    intro x hx
    simp only [List.mem_cons] at hx
    rcases hx with rfl | rfl | rfl | hx
    · decide
    · exact isHex_lt h1
    · exact isHex_lt h2
    · exact ih ha.2 x hx

theorem hostn_map {S : Spec} {h : Str} (hw : WF h) :
    hostn .uri (mapToUri h) = mapToUri (hostn S h) := by
  have hd : (tokens (mapToUri h)).all tokAscii = (tokens h).all tokAscii := by
    rw [ascii_bytes, ascii_bytes]
    have := mapToUri_wf_decode hw
    unfold pctDecode at this
    rw [this]
  unfold hostn
  rw [hd]
  by_cases ha : (tokens h).all tokAscii = true
  · rw [if_pos ha, if_pos ha, mapToUri_ascii (all_ascii_of_tokens hw ha), mapToUri_ascii]
    have hok := asciiN_ok (tokens_ok hw) ha
    have hal := asciiN_ascii ha
    refine all_ascii_of_tokens (render_wf hok) ?_
    rw [tokens_render hok]
    exact hal
  · rw [if_neg ha, if_neg ha]
    exact pctn_map hw

def mapAuth (a : AuthParts) : AuthParts := ⟨a.userinfo.map mapToUri, mapToUri a.host, a.port⟩

theorem mapAuth_valid {S : Spec} {a : AuthParts} (ha : a.Valid S) : (mapAuth a).Valid .uri := by
  refine ⟨?_, map_host ha.host, ha.port⟩
  intro x hx
  simp only [mapAuth, Option.map_eq_some_iff] at hx
  obtain ⟨u, hu, rfl⟩ := hx
  exact map_userinfo (ha.userinfo u hu)

theorem mapAuth_recompose {S : Spec} {a : AuthParts} (ha : a.Valid S) :
    (mapAuth a).recompose = mapToUri a.recompose := by
  unfold AuthParts.recompose
  rw [mapToUri_append, mapToUri_append]
  congr 1
  · simp only [mapAuth]
    cases a.userinfo with
    | none => rfl
    | some u => simp only [Option.map_some, optPre]; rw [mapToUri_append]; rfl
  · congr 1
    simp only [mapAuth]
    cases hp : a.port with
    | none => rfl
    | some u =>
      simp only [optSuf]
      rw [mapToUri_append, mapToUri_ascii (port_all_ascii (ha.port u hp))]; rfl

theorem authn_map {S : Spec} {x : Str} (h : authority S x) :
    authn .uri (mapToUri x) = mapToUri (authn S x) := by
  obtain ⟨a, ha, rfl⟩ := (authority_auth_parts S x).1 h
  rw [authn_eq ha, ← mapAuth_recompose ha, authn_eq (mapAuth_valid ha), ← mapAuth_recompose ha.norm]
  congr 1
  unfold AuthParts.norm mapAuth
  simp only [AuthParts.mk.injEq]
  refine ⟨?_, hostn_map (host_wf ha.host), trivial⟩
  cases hu : a.userinfo with
  | none => rfl
  | some u =>
    simp only [Option.map_some, Option.some.injEq]
    exact pctn_map ((userinfo_iff S u).1 (ha.userinfo u hu)).wf

/-! ### References -/

theorem normParts_map {S : Spec} {op : NormalizationMode} {p : Parts} (h : p.Valid S) :
    normParts .uri op (mapParts p) = mapParts (normParts S op p) := by
  unfold normParts mapParts
  simp only [Parts.mk.injEq, true_and]
  refine ⟨?_, ?_, ?_, ?_⟩
  · cases ha : p.authority with
    | none => split <;> rfl
    | some a =>
      split
      · simp [authn_map (h.authority a ha)]
      · rfl
  · rw [Option.isSome_map, pathn_map h.pathPC.wf]
  · cases ha : p.query with
    | none => rfl
    | some a => simp [wr_map (S := S) (query_wf h ha)]
  · cases ha : p.fragment with
    | none => rfl
    | some a => simp [wr_map (S := S) (fragment_wf h ha)]

theorem mergePaths_map {b : Parts} {x : Str} :
    mergePaths (mapParts b) (mapToUri x) = mapToUri (mergePaths b x) := by
  unfold mergePaths mapParts
  simp only [Option.isSome_map]
  have he : (mapToUri b.path).isEmpty = b.path.isEmpty := by
    rw [Bool.eq_iff_iff, List.isEmpty_iff, List.isEmpty_iff, mapToUri_empty]
  rw [he]
  split
  · rw [mapToUri_cons_ascii (by decide)]
  · rw [mapToUri_append]
    congr 1
    rcases rsplit_slash b.path with ⟨h1, h2⟩ | ⟨a, c, h1, h2, h3⟩
    · rw [h2]
      rcases rsplit_slash (mapToUri b.path) with ⟨h4, h5⟩ | ⟨a', c', h4, h5, h6⟩
      · rw [h5]; rfl
      · exfalso
        rw [rfind_split_hole_none] at h1
        exact mapToUri_no_slash h1 (by rw [h5]; simp)
    · have hc : '/' ∉ c := (rfind_split_hole_some.1 h1).2
      have e : mapToUri b.path = mapToUri a ++ '/' :: mapToUri c := by
        rw [h2, mapToUri_append, mapToUri_cons_ascii (by decide)]
      have hr := (rfind_split_hole_some (s := mapToUri b.path) (n := '/')).2 ⟨e, mapToUri_no_slash hc⟩
      rcases rsplit_slash (mapToUri b.path) with ⟨h4, _⟩ | ⟨a', c', h4, h5, h6⟩
      · rw [hr] at h4; cases h4
      · rw [hr] at h4
        cases h4
        rw [h6, h3, mapToUri_append]
        rfl

theorem mergeReference_map (b r : Parts) :
    mergeReference (mapParts b) (mapParts r) = mapParts (mergeReference b r) := by
  have hp := mergePaths_map (b := b) (x := r.path)
  have h1 := map_take1 r.path
  have he : (mapToUri r.path).isEmpty = r.path.isEmpty := by
    rw [Bool.eq_iff_iff, List.isEmpty_iff, List.isEmpty_iff, mapToUri_empty]
  unfold mergeReference
  simp only [show (mapParts r).path = mapToUri r.path from rfl,
    show (mapParts r).scheme = r.scheme from rfl, hp, he,
    show (mapParts r).authority = r.authority.map mapToUri from rfl, Option.isSome_map,
    show (mapParts r).query = r.query.map mapToUri from rfl]
  split
  · rfl
  · split
    · rfl
    · split
      · simp only [mapParts, Parts.mk.injEq, true_and]
        split <;> simp
      · simp only [mapParts, Parts.mk.injEq, true_and, and_true]
        by_cases h : r.path.take 1 = ['/']
        · simp [h, h1.2 h]
        · simp [h, mt h1.1 h]

theorem samePath_map (r : Parts) : samePath (mapParts r) = samePath r := by
  unfold samePath mapParts
  have he : (mapToUri r.path).isEmpty = r.path.isEmpty := by
    rw [Bool.eq_iff_iff, List.isEmpty_iff, List.isEmpty_iff, mapToUri_empty]
  simp [he]

end Verif
