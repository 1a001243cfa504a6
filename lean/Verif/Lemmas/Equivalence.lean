import Verif.Spec.Equivalence
import Verif.Lemmas.Commute

/-! # Normal forms and equivalence -/

namespace Verif

open Rfc PathToNormalize

variable {S : Spec}

theorem Closure.map {α β : Type} {R : α → α → Prop} {Q : β → β → Prop} {f : α → β}
    (h : ∀ a b, R a b → Q (f a) (f b)) {a b : α} (hc : Closure R a b) : Closure Q (f a) (f b) := by
  induction hc with
  | refl => exact .refl _
  | step h' => exact .step (h _ _ h')
  | symm _ ih => exact ih.symm
  | trans _ _ ih1 ih2 => exact ih1.trans ih2

theorem Closure.inv {α β : Type} {R : α → α → Prop} {f : α → β}
    (h : ∀ a b, R a b → f a = f b) {a b : α} (hc : Closure R a b) : f a = f b := by
  induction hc with
  | refl => rfl
  | step h' => exact h _ _ h'
  | symm _ ih => exact ih.symm
  | trans _ _ ih1 ih2 => exact ih1.trans ih2

/-! ### Percent-encoding -/

/-- Encoded bytes at the front of `a ++ (utf8 c) ++ b` that spell a character lie within `a`, or are
`utf8 c`. -/
theorem spell_in {a b : List Tok} {c : Char} {x : List Nat} {r' : List Tok} (hx : ∀ y ∈ x, isCont y)
    (he : a ++ (utf8 c).map Tok.pct ++ b = x.map Tok.pct ++ r') : ∃ a', a = x.map Tok.pct ++ a' := by
  induction x generalizing a with
  | nil => exact ⟨a, rfl⟩
  | cons y x ih =>
    cases a with
    | nil =>
      exfalso
      rw [List.nil_append, List.map_cons, List.cons_append] at he
      exact not_cont_lead (hx y (by simp)) c _ _ he.symm
    | cons z a =>
      simp only [List.cons_append, List.map_cons, List.cons.injEq] at he
      obtain ⟨rfl, he⟩ := he
      obtain ⟨a', rfl⟩ := ih (fun w hw => hx w (by simp [hw])) he
      exact ⟨a', rfl⟩

theorem PctNorm.decodeStep {r r' t : List Tok} (hs : DecodeStep S r r') (h : PctNorm S r' t) :
    PctNorm S r t := by
  obtain ⟨a, b, c, hu⟩ := hs
  generalize hr : a ++ Tok.ch c :: b = r' at h
  induction h generalizing a with
  | nil => simp at hr
  | @ch d r t h' ih =>
    cases a with
    | nil =>
      simp only [List.nil_append, List.cons.injEq, Tok.ch.injEq] at hr ⊢
      obtain ⟨rfl, rfl⟩ := hr
      exact .decode hu h'
    | cons z a =>
      simp only [List.cons_append, List.cons.injEq] at hr ⊢
      obtain ⟨rfl, hr⟩ := hr
      exact .ch (ih a hr)
  | @decode d r t hd h' ih =>
    have : ∃ a', a = (utf8 d).map Tok.pct ++ a' := by
      generalize utf8 d = x at hr
      clear ih h' hd
      induction x generalizing a with
      | nil => exact ⟨a, rfl⟩
      | cons y x ihx =>
        cases a with
        | nil => simp at hr
        | cons z a =>
          simp only [List.cons_append, List.map_cons, List.cons.injEq] at hr
          obtain ⟨rfl, hr⟩ := hr
          obtain ⟨a', rfl⟩ := ihx a hr
          exact ⟨a', rfl⟩
    obtain ⟨a', rfl⟩ := this
    rw [List.append_assoc] at hr
    have hr := List.append_cancel_left hr
    rw [List.append_assoc, List.append_assoc]
    have := ih a' hr
    rw [List.append_assoc] at this
    exact .decode hd this
  | @keep y r t hk h' ih =>
    cases a with
    | nil => simp at hr
    | cons z a =>
      simp only [List.cons_append, List.cons.injEq] at hr ⊢
      obtain ⟨rfl, hr⟩ := hr
      refine .keep ?_ (ih a hr)
      intro d r' hd he
      obtain ⟨b', x, e, hx, _⟩ := utf8_shape d
      rw [e, List.map_cons, List.cons_append, List.cons.injEq] at he
      obtain ⟨he0, he⟩ := he
      obtain ⟨a', rfl⟩ := spell_in hx he
      refine hk d (a' ++ Tok.ch c :: b) hd ?_
      rw [e, ← hr, List.map_cons, List.cons_append, ← he0, List.append_assoc]

/-- Every token list has a normal form. -/
theorem PctNorm.exists (r : List Tok) : ∃ t, PctNorm S r t := by
  generalize hn : r.length = n
  induction n using Nat.strongRecOn generalizing r with
  | ind n ih =>
    cases r with
    | nil => exact ⟨[], .nil⟩
    | cons x r =>
      cases x with
      | ch c =>
        obtain ⟨t, h⟩ := ih r.length (by rw [← hn]; simp) r rfl
        exact ⟨_, .ch h⟩
      | pct b =>
        by_cases hd : ∃ c r', iunreserved S c = true ∧ Tok.pct b :: r = (utf8 c).map .pct ++ r'
        · obtain ⟨c, r', hu, e⟩ := hd
          have hne := utf8_ne_nil c
          have hl : r'.length < n := by
            have := congrArg List.length e
            have h1 : 0 < (utf8 c).length := List.length_pos_iff.2 hne
            simp at this hn
            omega
          obtain ⟨t, h⟩ := ih _ hl r' rfl
          exact ⟨_, by rw [e]; exact .decode hu h⟩
        · obtain ⟨t, h⟩ := ih r.length (by rw [← hn]; simp) r rfl
          refine ⟨_, .keep ?_ h⟩
          intro c r' hu e
          exact hd ⟨c, r', hu, e⟩

theorem PctNorm.closure {r r' t t' : List Tok} (hc : Closure (DecodeStep S) r r')
    (h : PctNorm S r t) (h' : PctNorm S r' t') : t = t' := by
  have key : ∀ a b : List Tok, DecodeStep S a b → (PctNorm S a) = (PctNorm S b) := by
    intro a b hs
    funext x
    refine propext ⟨fun hx => ?_, fun hx => hx.decodeStep hs⟩
    obtain ⟨y, hy⟩ := PctNorm.exists (S := S) b
    have := (hy.decodeStep hs).det hx
    exact this ▸ hy
  have := Closure.inv key hc
  rw [this] at h
  exact h.det h'

/-- A token list is equivalent to its normal form. -/
theorem PctNorm.equiv {r t : List Tok} (h : PctNorm S r t) (a : List Tok) :
    Closure (DecodeStep S) (a ++ r) (a ++ t) := by
  induction h generalizing a with
  | nil => exact .refl _
  | @ch c r t _ ih =>
    have := ih (a ++ [.ch c])
    simpa using this
  | @decode c r t hu _ ih =>
    have h1 : Closure (DecodeStep S) (a ++ ((utf8 c).map .pct ++ r)) (a ++ .ch c :: r) := by
      have := DecodeStep.mk a r c hu
      rw [List.append_assoc] at this
      exact .step this
    have := ih (a ++ [.ch c])
    refine h1.trans ?_
    simpa using this
  | @keep b r t _ _ ih =>
    have := ih (a ++ [.pct b])
    simpa using this

theorem pctEquiv_iff {s t : Str} (hs : WF s) (ht : WF t) : PctEquiv S s t ↔ pctn S s = pctn S t := by
  obtain ⟨u, h1, _, h2⟩ := pctn_spec S hs
  obtain ⟨v, h3, _, h4⟩ := pctn_spec S ht
  constructor
  · intro h
    rw [h2, h4, h1.closure h h3]
  · intro h
    rw [h2, h4] at h
    have e : u = v := by
      rw [← tokens_render (h1.ok (tokens_ok hs)), h, tokens_render (h3.ok (tokens_ok ht))]
    subst e
    have e1 := h1.equiv []
    have e2 := h3.equiv []
    exact e1.trans e2.symm

/-! ### Hosts -/

theorem closure_bytes {r r' : List Tok} (h : DecodeStep S r r') :
    r.flatMap Tok.bytes = r'.flatMap Tok.bytes := by
  obtain ⟨a, b, c, _⟩ := h
  simp [List.flatMap_append, List.flatMap_cons, bytes_pcts, Tok.bytes]

/-- The normal form of the tokens of a host. -/
def hostTokNorm (S : Spec) (r : List Tok) (t : List Tok) : Prop :=
  if r.all tokAscii then t = r.map asciiN else PctNorm S r t

theorem hostStep_norm {r r' : List Tok} (hs : HostStep S r r') : hostTokNorm S r = hostTokNorm S r' := by
  cases hs with
  | decode hd =>
    have ha : r.all tokAscii = r'.all tokAscii := by rw [ascii_bytes, ascii_bytes, closure_bytes hd]
    funext t
    unfold hostTokNorm
    rw [← ha]
    split
    · rename_i hr
      obtain ⟨a, b, c, hu⟩ := hd
      congr 1
      simp only [List.map_append, List.map_cons, List.append_assoc]
      congr 1
      have hc : c.toNat < 128 := by
        rw [List.all_append, List.all_append] at hr
        simp only [Bool.and_eq_true] at hr
        have := hr.1.2
        rcases Nat.lt_or_ge c.toNat 128 with h | h
        · exact h
        · exfalso
          have hne := utf8_ne_nil c
          cases hu8 : utf8 c with
          | nil => exact hne hu8
          | cons y ys =>
            have h1 := (utf8_nonascii h y (by rw [hu8]; simp)).1
            rw [hu8] at this
            simp [tokAscii] at this
            omega
      have hun : is_ascii_unreserved (Char.ofNat c.toNat) = true :=
        (ascii_unreserved_iff S hc).2 (by rw [ofNat_toNat]; exact hu)
      rw [utf8_ascii hc]
      rw [ofNat_toNat] at hun
      simp only [List.map_cons, List.map_nil, List.singleton_append, asciiN, ofNat_toNat, hun,
        if_true]
    · have h1 : ∀ x, PctNorm S r x → PctNorm S r' x := by
        intro x hx
        obtain ⟨y, hy⟩ := PctNorm.exists (S := S) r'
        exact ((hy.decodeStep hd).det hx) ▸ hy
      exact propext ⟨h1 t, fun hx => hx.decodeStep hd⟩
  | case a b c ha =>
    have ha' : (a ++ Tok.ch (lower c) :: b).all tokAscii = true := by
      simp only [List.all_append, List.all_cons, Bool.and_eq_true] at ha ⊢
      refine ⟨ha.1, ?_, ha.2.2⟩
      have hc : c.toNat < 128 := by simpa [tokAscii] using ha.2.1
      rw [lower_eq]
      simpa [tokAscii] using toLower_ascii hc
    funext t
    unfold hostTokNorm
    rw [if_pos ha, if_pos ha']
    simp [asciiN, lower_eq, toLower_idem]

theorem hostTokNorm_spec {h : Str} (hw : WF h) : ∃ t, hostTokNorm S (tokens h) t ∧
    hostn S h = render t ∧ TokensOK t := by
  unfold hostTokNorm hostn
  split
  · rename_i ha
    exact ⟨_, rfl, rfl, asciiN_ok (tokens_ok hw) ha⟩
  · obtain ⟨t, h1, _, h3⟩ := pctn_spec S hw
    exact ⟨t, h1, h3, h1.ok (tokens_ok hw)⟩

theorem hostTokNorm_det {r t t' : List Tok} (h : hostTokNorm S r t) (h' : hostTokNorm S r t') : t = t' := by
  unfold hostTokNorm at h h'
  split at h
  · rename_i ha; rw [if_pos ha] at h'; rw [h, h']
  · rename_i ha; rw [if_neg ha] at h'; exact h.det h'

theorem closure_host {r r' : List Tok} (h : Closure (DecodeStep S) r r') : Closure (HostStep S) r r' :=
  Closure.map (f := id) (fun _ _ h => .decode h) h

theorem case_steps (a : List Tok) {r : List Tok} (ha : (a ++ r).all tokAscii = true) :
    Closure (HostStep S) (a ++ r) (a ++ r.map tokLower) := by
  induction r generalizing a with
  | nil => exact .refl _
  | cons t r ih =>
    have key : ∀ u, (a ++ u :: r).all tokAscii = true →
        Closure (HostStep S) (a ++ u :: r) (a ++ u :: r.map tokLower) := by
      intro u hu
      have := ih (a ++ [u]) (by simpa using hu)
      simpa using this
    cases t with
    | pct b => exact key _ ha
    | ch c =>
      refine (Closure.step (HostStep.case a r c ha)).trans (key _ ?_)
      simp only [List.all_append, List.all_cons, Bool.and_eq_true] at ha ⊢
      refine ⟨ha.1, ?_, ha.2.2⟩
      have hc : c.toNat < 128 := by simpa [tokAscii] using ha.2.1
      rw [lower_eq]
      simpa [tokAscii] using toLower_ascii hc

theorem hostTokNorm_equiv {r t : List Tok} (h : hostTokNorm S r t) : Closure (HostStep S) r t := by
  unfold hostTokNorm at h
  split at h
  · rename_i ha
    have hp := asciiP_norm S ha
    have h1 := closure_host (hp.equiv [])
    have ha' : (r.map asciiP).all tokAscii = true := by
      rw [ascii_bytes, ← hp.bytes, ← ascii_bytes]; exact ha
    have h2 := case_steps (S := S) [] (r := r.map asciiP) ha'
    refine h1.trans ?_
    have e : (r.map asciiP).map tokLower = t := by
      rw [h, List.map_map]
      exact List.map_congr_left fun x _ => asciiP_lower x
    rw [e] at h2
    exact h2
  · exact closure_host (h.equiv [])

theorem hostEquiv_iff {s t : Str} (hs : WF s) (ht : WF t) : HostEquiv S s t ↔ hostn S s = hostn S t := by
  obtain ⟨u, h1, h2, h2'⟩ := hostTokNorm_spec (S := S) hs
  obtain ⟨v, h3, h4, h4'⟩ := hostTokNorm_spec (S := S) ht
  constructor
  · intro h
    have := Closure.inv (f := hostTokNorm S) (fun _ _ => hostStep_norm) h
    rw [this] at h1
    rw [h2, h4, hostTokNorm_det h1 h3]
  · intro h
    rw [h2, h4] at h
    have e : u = v := by rw [← tokens_render h2', h, tokens_render h4']
    subst e
    exact (hostTokNorm_equiv h1).trans (hostTokNorm_equiv h3).symm

/-! ### Paths -/

theorem pctn_rds {s : Str} (h : WF s) :
    pctn S (remove_dot_segments (undot s)) = remove_dot_segments (undot (pctn S s)) := by
  obtain ⟨hok, ht⟩ := pathSegs_spec s
  have hq : ∀ g ∈ pathSegs s, WF g.2 := PC_path_names hok (by rw [ht]; exact h)
  have hmap : ∀ L : List PSeg, mapSegs (pctn S) L = wrSegs S .default L := fun _ => rfl
  have hw : ∀ x : Str, wr S .default x = pctn S x := fun _ => rfl
  have hok' : OKSegs (mapSegs (pctn S) (pathSegs s)) := by
    rw [hmap]; exact wrSegs_ok (fun g hg _ => hq g hg) hok
  have hpt : pathText (mapSegs (pctn S) (pathSegs s)) = pctn S s := by
    rw [hmap, ← wr_path hok (textOK_of_names (fun g hg _ => hq g hg)), ht]; rfl
  have e : pathSegs (pctn S s) = mapSegs (pctn S) (pathSegs s) := by
    rw [← pathSegs_unique hok', hpt]
  have h1 := wr_rds (S := S) (op := .default) (s := s) (fun _ => h)
  rw [hw] at h1
  rw [h1, rds_eq, ← hmap]
  congr 1
  unfold rdsSegs
  rw [e, stripRel_mapSegs (Q := WF) (fun _ hn => kind_pctn hn) (fun _ hn => pctn_empty S hn) hq,
    fin_mapSegs (Q := WF) (fun _ hn => kind_pctn hn) (pctn_nil S) (stripRel_names hq)]

theorem escape_pctn_inj {auth : Bool} {s t : Str} (hs : WF s) (ht : WF t)
    (h : escapePath auth (pctn S (remove_dot_segments (undot s))) =
      escapePath auth (pctn S (remove_dot_segments (undot t)))) :
    pctn S (remove_dot_segments (undot s)) = pctn S (remove_dot_segments (undot t)) := by
  rw [pctn_rds hs, pctn_rds ht] at h ⊢
  rw [← rds_escape auth (pctn S s), h, rds_escape]

end Verif
