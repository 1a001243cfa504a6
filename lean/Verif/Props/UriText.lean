import Verif.Props.TemplateExact
import Verif.Props.Build
import Verif.Spec.UriText
import Verif.Props.Convert
import Verif.Lemmas.Commute
import Verif.Lemmas.TemplateSafe

/-!
# C80: text made for IRIs and then converted is text made for URIs

Percent-encoding and template expansion are generic in the spec.  `mapToUri` (`Spec/Encode.lean`) is the
mapping of RFC 3987 section 3.1; `C24_variants_agree` proves that `encode_to_uri` performs it.
-/

namespace Verif

open Verif.Abnf Verif.Rfc

theorem isValidChar_spec (ctx : Context) (c : Char) :
    ctx.isValidChar .uri c = (isAscii c && ctx.isValidChar .iri c) := by
  unfold Context.isValidChar
  cases ctx <;> cases h : isAscii c <;>
    simp [Spec.is_nonascii_char_unreserved, Spec.is_nonascii_char_private, is_nonascii_regname,
      is_nonascii_userinfo, is_nonascii_query, is_nonascii_fragment]

theorem mapToUri_flatMap {α : Type} (l : List α) (f : α → Str) :
    mapToUri (l.flatMap f) = l.flatMap fun a => mapToUri (f a) := by
  induction l with
  | nil => rfl
  | cons a l ih => rw [List.flatMap_cons, mapToUri_append, ih, List.flatMap_cons]

theorem pcts_ascii (c : Char) : mapToUri ((utf8 c).flatMap pctUpper) = (utf8 c).flatMap pctUpper := by
  refine mapToUri_ascii fun d hd => ?_
  obtain ⟨b, hb, hd⟩ := List.mem_flatMap.1 hd
  exact pctUpper_ascii (utf8_lt c b hb) d hd

theorem encWriteChar_uri (ctx : Context) (c : Char) :
    mapToUri (encWriteChar .iri ctx c) = encWriteChar .uri ctx c := by
  unfold encWriteChar write_pct_encoded_char
  simp only [show writePct = pctUpper from funext writePct_eq]
  rw [isValidChar_spec]
  by_cases ha : c.toNat < 128
  · have : isAscii c = true := by simpa [isAscii] using ha
    rw [this, Bool.true_and]
    split
    · exact mapToUri_ascii (by simpa using ha)
    · exact pcts_ascii c
  · have : isAscii c = false := by simpa [isAscii] using ha
    rw [this, Bool.false_and]
    split
    · simp [mapToUri, ha]
    · simpa using pcts_ascii c

/-- **C80.**  For every `PercentEncoded` context and every value: the text encoded for IRIs, converted to
ASCII, is the text encoded for URIs. -/
theorem C80_percent_encode (ctx : Context) (raw : List Str) :
    encode_to_uri (percent_encode .iri ctx raw) = some (percent_encode .uri ctx raw) := by
  rw [(C24_variants_agree _).1, percent_encode_flatten, percent_encode_flatten, mapToUri_flatMap]
  congr 2
  funext c
  exact encWriteChar_uri ctx c

namespace Rfc6570

open Verif.Tpl Verif.MaybePct

theorem encU_map (s : Str) : mapToUri (encU .iri s) = encU .uri s := by
  rw [← unreserve_eq, ← unreserve_eq]
  have := C80_percent_encode .unreserve [s]
  rw [(C24_variants_agree _).1] at this
  exact Option.some.inj this

theorem encR1s_map (s : Str) : mapToUri (s.flatMap (encR1 .iri)) = s.flatMap (encR1 .uri) := by
  rw [← characters_eq, ← characters_eq]
  have := C80_percent_encode .character [s]
  rw [(C24_variants_agree _).1] at this
  exact Option.some.inj this

/-- All characters are ASCII. -/
abbrev Asc (s : Str) : Prop := ∀ c ∈ s, c.toNat < 128

theorem Asc.append {a b : Str} (h : Asc a) (h' : Asc b) : Asc (a ++ b) := by
  intro c hc
  rcases List.mem_append.1 hc with h1 | h1
  · exact h c h1
  · exact h' c h1

theorem hexdig_ascii {h : Char} (hh : HEXDIG h = true) : h.toNat < 128 := by
  exact isHex_ascii (by rw [← HEXDIG_eq]; exact hh)

theorem Trip.asc {g : Str} {bs : List Nat} (h : Trip g bs) : Asc g := by
  induction h with
  | nil => intro c hc; cases hc
  | cons h1 h2 _ ih =>
    intro c hc
    simp only [List.mem_cons] at hc
    rcases hc with rfl | rfl | rfl | hc
    · decide
    · exact hexdig_ascii h1
    · exact hexdig_ascii h2
    · exact ih c hc

theorem Tail.asc {t : Str} (h : Tail t) : Asc t := by
  rcases h with rfl | rfl | ⟨a, ha, rfl⟩
  · intro c hc; cases hc
  · intro c hc; simp at hc; subst hc; decide
  · intro c hc
    simp only [List.mem_cons, List.not_mem_nil, or_false] at hc
    rcases hc with rfl | rfl
    · decide
    · exact hexdig_ascii ha

/-- The triplets handed on are ASCII. -/
def FragAsc : Frag → Prop
  | .char s | .invalid s => Asc s
  | _ => True

theorem flushed_asc {g t : Str} (h : Asc g) : ∀ f ∈ flushed g t, FragAsc f := by
  intro f hf
  unfold flushed at hf
  rcases List.mem_cons.1 hf with rfl | hf
  · exact h
  · split at hf
    · cases hf
    · simp at hf; subst hf; trivial
    · simp at hf; rcases hf with rfl | rfl <;> trivial

theorem fragments_asc {dbg : Bool} {k t : Str} {d : List Str} {fs : List Frag} {p : Bool}
    (h : Fragments dbg k t d fs p) (hk : Asc k) : ∀ f ∈ fs, FragAsc f := by
  have hn : Asc [] := fun c hc => by cases hc
  induction h with
  | done => intro f hf; cases hf
  | doneHeld _ => exact flushed_asc hk
  | next _ ih => exact ih hk
  | plain _ _ _ _ _ _ ih =>
    intro f hf
    rcases List.mem_cons.1 hf with rfl | hf
    · trivial
    · exact ih hn f hf
  | wide _ => exact flushed_asc hk
  | againDebug _ _ => intro f hf; cases hf
  | againRelease _ _ _ ih =>
    intro f hf
    rcases List.mem_cons.1 hf with rfl | hf
    · trivial
    · exact ih hn f hf
  | cut _ hg _ _ _ _ _ _ _ ih =>
    intro f hf
    rcases List.mem_append.1 hf with hf | hf
    · exact flushed_asc (hk.append hg.asc) f hf
    · exact ih hn f hf
  | cutWide _ hg _ _ _ _ _ => exact flushed_asc (hk.append hg.asc)
  | stay _ hg _ _ _ _ _ ih => exact ih (hk.append hg.asc)
  | char _ hg _ _ _ _ _ ih =>
    intro f hf
    rcases List.mem_cons.1 hf with rfl | hf
    · exact hk.append hg.asc
    · exact ih hn f hf
  | bad hg _ _ _ _ ih =>
    intro f hf
    rcases List.mem_cons.1 hf with rfl | hf
    · exact hg.asc
    · exact ih hn f hf
  | broken _ hg hz _ _ _ _ _ ih =>
    intro f hf
    rcases List.mem_cons.1 hf with rfl | hf
    · exact hk.append hg.asc
    · exact ih hz.asc f hf
  | ascii _ _ hg _ _ _ _ ih =>
    intro f hf
    rcases List.mem_cons.1 hf with rfl | hf
    · exact hk.append hg.asc
    · exact ih hn f hf
  | asciiPanic _ _ _ _ _ _ => intro f hf; cases hf

theorem fragmentsOf_asc (dbg : Bool) (d : List Str) : ∀ f ∈ (fragmentsOf dbg d).1, FragAsc f :=
  fragments_asc (fragmentsOf_spec dbg d) fun c hc => by cases hc

theorem fragText_map {f : Frag} (h : FragAsc f) : mapToUri (fragText .iri f) = fragText .uri f := by
  cases f with
  | char s => exact mapToUri_ascii h
  | invalid s => exact mapToUri_ascii h
  | stray => exact mapToUri_ascii (s := ['%', '2', '5']) (by decide)
  | noPct s => exact encR1s_map s

theorem fragTexts_map {fs : List Frag} (h : ∀ f ∈ fs, FragAsc f) :
    mapToUri (fs.flatMap (fragText .iri)) = fs.flatMap (fragText .uri) := by
  induction fs with
  | nil => rfl
  | cons f fs ih =>
    rw [List.flatMap_cons, mapToUri_append, ih fun g hg => h g (.tail _ hg), fragText_map (h f (.head _)),
      List.flatMap_cons]

theorem map_prepend {x y : Option Str} {a b : Str} (h : x.map mapToUri = y) (hab : mapToUri a = b) :
    (x.map (a ++ ·)).map mapToUri = y.map (b ++ ·) := by
  subst h hab
  cases x with
  | none => rfl
  | some x => simp [mapToUri_append]

theorem prefixText_map (dbg : Bool) (n : Nat) (fs : List Frag) (p : Bool) (h : ∀ f ∈ fs, FragAsc f) :
    (prefixText .iri dbg n fs p).map mapToUri = prefixText .uri dbg n fs p := by
  induction fs generalizing n with
  | nil => cases n <;> cases p <;> rfl
  | cons f fs ih =>
    have hf := h f (.head _)
    have ih := fun n => ih n fun g hg => h g (.tail _ hg)
    cases n with
    | zero => rfl
    | succ n =>
      cases f with
      | char s => exact map_prepend (ih n) (mapToUri_ascii hf)
      | stray => exact map_prepend (ih n) (mapToUri_ascii (s := ['%', '2', '5']) (by decide))
      | invalid s => exact map_prepend (ih _) (mapToUri_ascii fun c hc => hf c (List.mem_of_mem_take hc))
      | noPct s =>
        cases s with
        | nil => rfl
        | cons c r =>
          simp only [prefixText]
          split
          · exact map_prepend (ih _) (encR1s_map _)
          · split
            · rfl
            · exact map_prepend (ih _) (encR1s_map _)

theorem prefixPieces_map (dbg : Bool) (n : Nat) (d : List Str) :
    (prefixPieces .iri dbg n d).map mapToUri = prefixPieces .uri dbg n d := by
  induction d generalizing n with
  | nil => cases n <;> rfl
  | cons s d ih =>
    cases n with
    | zero => rfl
    | succ n =>
      cases s with
      | nil => exact ih _
      | cons c r =>
        simp only [prefixPieces]
        split
        · exact map_prepend (ih _) (encU_map _)
        · split
          · rfl
          · exact map_prepend (ih _) (encU_map _)

theorem memberText_map (dbg : Bool) (o : OpRow) (d : List Str) :
    (memberText .iri dbg o d).map mapToUri = memberText .uri dbg o d := by
  unfold memberText
  split
  · split
    · rfl
    · exact congrArg some (fragTexts_map (fragmentsOf_asc dbg d))
  · exact congrArg some (encU_map _)

theorem stringText_map (dbg : Bool) (o : OpRow) (m : Mod) (d : List Str) :
    (stringText .iri dbg o m d).map mapToUri = stringText .uri dbg o m d := by
  unfold stringText
  split
  · split
    · exact prefixText_map dbg _ _ _ (fragmentsOf_asc dbg d)
    · exact prefixPieces_map dbg _ _
  · split
    · split
      · rfl
      · exact congrArg some (fragTexts_map (fragmentsOf_asc dbg d))
    · exact congrArg some (encU_map _)

theorem allSome_map {ι α β : Type} (g : α → β) (l : List ι) (f : ι → Option α) (f' : ι → Option β)
    (h : ∀ i ∈ l, (f i).map g = f' i) :
    (allSome (l.map f)).map (List.map g) = allSome (l.map f') := by
  induction l with
  | nil => rfl
  | cons i l ih =>
    simp only [List.map_cons, allSome]
    rw [← h i (.head _), ← ih fun j hj => h j (.tail _ hj)]
    cases f i with
    | none => rfl
    | some a => cases allSome (l.map f) <;> rfl

theorem joinWith_map {sep : Str} (hs : Asc sep) (l : List Str) :
    mapToUri (joinWith sep l) = joinWith sep (l.map mapToUri) := by
  induction l with
  | nil => rfl
  | cons x l ih =>
    cases l with
    | nil => rfl
    | cons y r =>
      simp only [joinWith, List.map_cons, mapToUri_append] at ih ⊢
      rw [mapToUri_ascii hs, ih]

/-- The texts of the table of Appendix A are ASCII. -/
structure RowAsc (o : OpRow) : Prop where
  first : Asc o.first
  sep : Asc o.sep
  ifemp : Asc o.ifemp

theorem row_asc (op : Option Char) : RowAsc (row op) := by
  cases op with
  | none => exact ⟨by decide, by decide, by decide⟩
  | some c =>
    unfold row
    simp only
    repeat' split
    all_goals exact ⟨by decide, by decide, by decide⟩

theorem map_eq {c : Char} (hc : c.toNat < 128) (a b : Str) :
    mapToUri (a ++ c :: b) = mapToUri a ++ c :: mapToUri b := by
  rw [mapToUri_append, mapToUri_cons_ascii hc]

theorem listText_map {o : OpRow} (ho : RowAsc o) {v : Var} (hv : Asc v.name) (items : List Str) :
    mapToUri (listText .iri o v items) = listText .uri o v (items.map mapToUri) := by
  have he : ('=' : Char).toNat < 128 := by decide
  unfold listText
  split
  · split
    · cases items with
      | nil => rfl
      | cons i r =>
        simp only [List.map_cons]
        rw [joinWith_map ho.sep]
        simp only [List.map_cons, List.map_map, map_eq he, mapToUri_ascii hv]
        congr 2
        refine List.map_congr_left fun i _ => ?_
        simp only [Function.comp, map_eq he, encU_map]
    · exact joinWith_map ho.sep items
  · rw [mapToUri_append, joinWith_map (by decide)]
    congr 1
    split
    · rw [map_eq he, mapToUri_ascii hv, mapToUri_nil]
    · rfl

theorem assocText_map {o : OpRow} (ho : RowAsc o) {v : Var} (entries : List (Str × Str)) :
    mapToUri (assocText .iri o v entries) =
      assocText .uri o v (entries.map fun e => (mapToUri e.1, mapToUri e.2)) := by
  have he : ('=' : Char).toNat < 128 := by decide
  have hc : (',' : Char).toNat < 128 := by decide
  unfold assocText
  split
  · rw [joinWith_map ho.sep]
    simp only [List.map_map]
    congr 1
    refine List.map_congr_left fun i _ => ?_
    simp only [Function.comp, map_eq he]
  · rw [mapToUri_append, joinWith_map (by decide)]
    simp only [List.map_map]
    congr 1
    · split
      · rw [map_eq he, encU_map, mapToUri_nil]
      · rfl
    · congr 1
      refine List.map_congr_left fun i _ => ?_
      simp only [Function.comp, map_eq hc]

theorem varExact_map (dbg : Bool) {o : OpRow} (ho : RowAsc o) {v : Var} (hv : Asc v.name) (val : Value) :
    (varExact .iri dbg o v val).map mapToUri = varExact .uri dbg o v val := by
  cases val with
  | undefined => rfl
  | string d =>
    simp only [varExact]
    rw [← stringText_map, Option.map_map, Option.map_map]
    congr 1
    funext t
    simp only [Function.comp]
    split
    · rw [mapToUri_append, mapToUri_ascii hv]
      congr 1
      by_cases ht : t = []
      · rw [if_pos ht, if_pos (by rw [ht]; rfl), mapToUri_ascii ho.ifemp]
      · rw [if_neg ht, if_neg (by rwa [mapToUri_empty]), mapToUri_cons_ascii (by decide)]
    · rfl
  | list items =>
    simp only [varExact]
    split
    · rfl
    · rw [← allSome_map mapToUri items _ _ fun i _ => memberText_map dbg o i, Option.map_map, Option.map_map]
      congr 1
      funext t
      exact listText_map ho hv t
  | assoc entries =>
    simp only [varExact]
    split
    · rfl
    · rw [← allSome_map (fun e : Str × Str => (mapToUri e.1, mapToUri e.2)) entries
        (fun e => (memberText .iri dbg o e.1).bind fun k => (memberText .iri dbg o e.2).map fun x => (k, x))
        (fun e => (memberText .uri dbg o e.1).bind fun k => (memberText .uri dbg o e.2).map fun x => (k, x)),
        Option.map_map, Option.map_map]
      · congr 1
        funext t
        exact assocText_map ho t
      · intro e _
        rw [← memberText_map, ← memberText_map]
        cases memberText .iri dbg o e.1 with
        | none => rfl
        | some a => cases memberText .iri dbg o e.2 <;> rfl

theorem exprExact_map (dbg : Bool) (val : Str → Value) (op : Option Char) (vars : List Var)
    (hv : ∀ v ∈ vars, Asc v.name) :
    (exprExact .iri dbg val op vars).map mapToUri = exprExact .uri dbg val op vars := by
  unfold exprExact
  rw [← allSome_map mapToUri _ _ _ fun v hm =>
    varExact_map dbg (row_asc op) (hv v (List.mem_filter.1 hm).1) (val v.name), Option.map_map, Option.map_map]
  congr 1
  funext parts
  cases parts with
  | nil => rfl
  | cons a l =>
    show mapToUri ((row op).first ++ joinWith (row op).sep (a :: l)) =
      (row op).first ++ joinWith (row op).sep (List.map mapToUri (a :: l))
    rw [mapToUri_append, mapToUri_ascii (row_asc op).first, joinWith_map (row_asc op).sep]

theorem pct_asc {s : Str} (h : pct_encoded s) : Asc s := by
  obtain ⟨a, b, rfl, ha, l, r, rfl, ⟨c, rfl, hc⟩, ⟨d, rfl, hd⟩⟩ := h
  cases ha
  intro x hx
  simp at hx
  rcases hx with rfl | rfl | rfl
  · decide
  · exact hexdig_ascii hc
  · exact hexdig_ascii hd

theorem lit_asc {s : Str} (h : asciiLiterals s) : Asc s := by
  rcases h with ⟨c, rfl, hc⟩ | h
  · intro x hx
    simp at hx
    subst hx
    exact literalChar_ascii hc
  · exact pct_asc h

theorem name_asc {s : Str} (h : varnameX s) : Asc s := by
  intro c hc
  rcases (pc_name (S := .uri) h).mem hc with rfl | h' | h'
  · decide
  · exact isHex_ascii h'
  · cases Nat.lt_or_ge c.toNat 128 with
    | inl h => exact h
    | inr h => rw [show iunreserved .uri c = unreserved c from rfl, unreserved_false h] at h'; cases h'

theorem pieceExact_map (dbg : Bool) (val : Str → Value) {p : Piece}
    (hp : p.WF asciiLiterals varnameX maxLengthX) :
    (pieceExact .iri dbg val p).map mapToUri = pieceExact .uri dbg val p := by
  cases p with
  | lit s => exact congrArg some (mapToUri_ascii (lit_asc hp))
  | expr op vars => exact exprExact_map dbg val op vars fun v hv => name_asc (hp.2.2 v hv).1

theorem expansion_map (dbg : Bool) (val : Str → Value) {t : List Piece} (ht : Accepted t) :
    (expansionExact .iri dbg val t).map mapToUri = expansionExact .uri dbg val t := by
  unfold expansionExact
  rw [← allSome_map mapToUri _ _ _ fun p hp => pieceExact_map dbg val (ht p hp), Option.map_map, Option.map_map]
  congr 1
  funext l
  show mapToUri l.flatten = (l.map mapToUri).flatten
  induction l with
  | nil => rfl
  | cons a l ih => rw [List.flatten_cons, mapToUri_append, ih, List.map_cons, List.flatten_cons]

/-- **C80.**  For every template and every context: expanding for URIs is expanding for IRIs and then
converting the text to ASCII; and both fail, and panic, in the same cases, with the same error. -/
theorem _root_.Verif.C80_expand (dbg : Bool) (ctx : Ctx) (t : List Piece) (ht : Accepted t) :
    (∀ u, expand_to_string .iri dbg ctx (text t) = .ok u →
      ∃ v, encode_to_uri u = some v ∧ expand_to_string .uri dbg ctx (text t) = .ok v) ∧
    (∀ k pos, expand_to_string .iri dbg ctx (text t) = .err k pos ↔
      expand_to_string .uri dbg ctx (text t) = .err k pos) ∧
    (expand_to_string .iri dbg ctx (text t) = .panic ↔ expand_to_string .uri dbg ctx (text t) = .panic) := by
  rw [C33_exact .iri dbg ctx t ht, C33_exact .uri dbg ctx t ht, ← expansion_map dbg (ctx .expand) ht]
  cases checkAll (fun n => flat (ctx .typecheck n)) (places 0 t) with
  | panic => simp [Res.bind]
  | err k pos => simp [Res.bind]
  | ok _ =>
    simp only [Res.bind]
    cases expansionExact .iri dbg (ctx .expand) t with
    | none => simp
    | some u => simp [(C24_variants_agree _).1]

/-- **C80.**  If the expansion for IRIs is an IRI (of any kind), the expansion for URIs is a URI of that
kind. -/
theorem _root_.Verif.C80_expand_valid (dbg : Bool) (ctx : Ctx) (t : List Piece) (ht : Accepted t) (k : IriKind)
    (u : Str) (h : expand_to_string .iri dbg ctx (text t) = .ok u) (hk : k.validate .iri u = some true) :
    ∃ v, expand_to_string .uri dbg ctx (text t) = .ok v ∧ k.validate .uri v = some true := by
  obtain ⟨v, h1, h2⟩ := (C80_expand dbg ctx t ht).1 u h
  obtain ⟨w, h3, -, h4, -⟩ := C24_encode_to_uri .iri k u hk
  rw [h1] at h3
  cases h3
  exact ⟨v, h2, h4⟩

/-- The converse of `C80_expand_valid` is false: under `{+v}` a private-use character is kept for IRIs,
and IRIs have it only in the query. -/
theorem _root_.Verif.C80_not_conversely : ∃ (ctx : Ctx) (t u v : Str),
    expand_to_string .iri true ctx t = .ok u ∧ expand_to_string .uri true ctx t = .ok v ∧
    IriKind.reference.validate .uri v = some true ∧ IriKind.reference.validate .iri u ≠ some true :=
  ⟨fun _ _ => .string [['/', Char.ofNat 0xE000]], chars! "{+v}", ['/', Char.ofNat 0xE000], chars! "/%EE%80%80",
    by decide +kernel, by decide +kernel, by decide +kernel, by decide +kernel⟩

/-- A concrete case of `C80_expand`: `{?v,w}` with a value of two pieces, one of them not ASCII, and a
list. -/
example :
    let ctx : Ctx := fun _ n => if n = ['v'] then .string [[Char.ofNat 233], ['/', 'x']] else .list [[['a']], [[Char.ofNat 0x3042]]]
    let t := [Piece.lit ['h'], .lit ['/'], .expr (some '?') [⟨['v'], .none⟩, ⟨['w'], .explode⟩]]
    text t = chars! "h/{?v,w*}" ∧
    expand_to_string .iri true ctx (text t) =
      .ok (chars! "h/?v=" ++ Char.ofNat 233 :: chars! "%2Fx&w=a&w=" ++ [Char.ofNat 0x3042]) ∧
    expand_to_string .uri true ctx (text t) = .ok (chars! "h/?v=%C3%A9%2Fx&w=a&w=%E3%81%82") := by
  decide +kernel

end Rfc6570

/-! ## The builder -/

open BuildSpec

theorem uriUserinfo_text (u : UserinfoRepr) :
    userinfoText (uriUserinfo u) = (userinfoText u).map mapToUri := by
  cases u with
  | absent => rfl
  | direct u => rfl
  | userPass u p =>
    cases p with
    | none => rfl
    | some p =>
      simp only [uriUserinfo, userinfoText, Option.map_some]
      rw [mapToUri_append, mapToUri_cons_ascii (by decide)]

theorem uriHost_text (h : HostRepr) : hostText (uriHost h) = mapToUri (hostText h) := by
  cases h with
  | string s => rfl
  | ipv4 a b c d =>
    refine (mapToUri_ascii fun x hx => ?_).symm
    have h1 := ipv4_regname (S := .uri) (ipv4Display_ok a.toNat_lt b.toNat_lt c.toNat_lt d.toNat_lt)
    rw [reg_name_iff] at h1
    rcases h1.mem hx with rfl | h2 | h2
    · decide
    · exact isHex_lt h2
    · simp only [regnameC, Bool.or_eq_true] at h2
      rcases h2 with h2 | h2
      · exact unreserved_ascii h2
      · exact sub_delims_ascii h2
  | ipv6 a =>
    refine (mapToUri_ascii ?_).symm
    exact ip_literal_all_ascii ⟨['['], a.display ++ [']'], rfl, rfl, a.display, [']'], rfl, .inl (ipv6Display_ok a), rfl⟩

theorem uriAuthority_parts (a : AuthorityBuilder) : authParts (uriAuthority a) =
    ⟨(authParts a).userinfo.map mapToUri, mapToUri (authParts a).host, (authParts a).port⟩ := by
  unfold authParts uriAuthority
  simp only [uriUserinfo_text, uriHost_text]

theorem uriAuthority_text {S : Spec} {a : AuthorityBuilder} (h : (authParts a).Valid S) :
    (authParts (uriAuthority a)).recompose = mapToUri (authParts a).recompose := by
  rw [uriAuthority_parts]
  unfold AuthParts.recompose
  rw [mapToUri_append, mapToUri_append]
  congr 1
  · cases (authParts a).userinfo with
    | none => rfl
    | some u => simp only [Option.map_some, optPre]; rw [mapToUri_append]; rfl
  · congr 1
    cases hp : (authParts a).port with
    | none => rfl
    | some u =>
      simp only [optSuf]
      rw [mapToUri_append, mapToUri_ascii (port_all_ascii (h.port u hp))]; rfl

theorem mapToUri_mem {s : Str} {d : Char} (hd : d.toNat < 128) (hp : d ≠ '%') (hx : isHex d = false)
    (h : d ∈ mapToUri s) : d ∈ s := by
  obtain ⟨a, b, e⟩ := List.append_of_mem h
  obtain ⟨a', b', rfl, _⟩ := mapToUri_cut hd hp hx e
  simp

theorem acceptable_uri {S : Spec} {k : IriKind} {b : Builder} (h : Acceptable S k b) :
    Acceptable .uri k (uriBuilder b) where
  kind := by
    have := h.kind
    cases k with
    | reference => trivial
    | iri => exact this
    | absolute => exact ⟨this.1, by show b.fragment.map mapToUri = none; rw [this.2]; rfl⟩
    | relative => exact this
  scheme := h.scheme
  authority := by
    intro x hx
    simp only [uriBuilder, Option.map_eq_some_iff] at hx
    obtain ⟨a, ha, rfl⟩ := hx
    obtain ⟨h1, h2⟩ := h.authority a ha
    refine ⟨?_, ?_⟩
    · rw [uriAuthority_parts]
      refine ⟨?_, map_host h1.host, h1.port⟩
      intro x hx
      simp only [Option.map_eq_some_iff] at hx
      obtain ⟨u, hu, rfl⟩ := hx
      exact map_userinfo (h1.userinfo u hu)
    · show UserOk (uriUserinfo a.userinfo)
      cases hu : a.userinfo with
      | absent => trivial
      | direct u => trivial
      | userPass u p =>
        rw [hu] at h2
        exact fun hm => h2 (mapToUri_mem (by decide) (by decide) (by decide) hm)
  withAuthority := by
    intro ha
    rcases h.withAuthority (by intro e; apply ha; simp [uriBuilder, e]) with h1 | ⟨r, h1⟩
    · left; simp [uriBuilder, h1, mapToUri_nil]
    · right; exact ⟨mapToUri r, by simp only [uriBuilder, h1]; rw [mapToUri_cons_ascii (by decide)]⟩
  withoutAuthority := by
    intro ha hn r hr
    have ha : b.authority = none := by simpa [uriBuilder] using ha
    simp only [uriBuilder] at hr
    obtain ⟨t, e, e2⟩ := map_slash ⟨_, hr⟩
    rw [e2] at hr
    obtain ⟨u, e3, e4⟩ := map_slash ⟨_, (List.cons.inj hr).2⟩
    exact h.withoutAuthority ha hn u (by rw [e, e3])
  withoutScheme := by
    intro hs ha
    have ha : b.authority = none := by simpa [uriBuilder] using ha
    rintro ⟨a, c, h1, h2⟩
    simp only [uriBuilder] at h1
    obtain ⟨a', b', h3, h4⟩ := mapToUri_cut (by decide) (by decide) (by decide) h1
    refine h.withoutScheme hs ha ⟨a', b', h3, ?_⟩
    intro hm
    apply h2
    rw [← h4]
    exact List.mem_flatMap.2 ⟨'/', hm, by decide⟩
  query := by
    intro x hx
    simp only [uriBuilder, Option.map_eq_some_iff] at hx
    obtain ⟨a, ha, rfl⟩ := hx
    exact map_query (h.query a ha)
  fragment := by
    intro x hx
    simp only [uriBuilder, Option.map_eq_some_iff] at hx
    obtain ⟨a, ha, rfl⟩ := hx
    exact map_fragment (h.fragment a ha)

theorem uriBuilder_text {S : Spec} {k : IriKind} {b : Builder} (h : Acceptable S k b) :
    (parts (uriBuilder b)).recompose = mapToUri (parts b).recompose := by
  have hsuf : ∀ (d : Str) (o : Option Str), (∀ c ∈ d, c.toNat < 128) →
      optSuf d (o.map mapToUri) = mapToUri (optSuf d o) := by
    intro d o hd
    cases o with
    | none => rfl
    | some x => simp only [Option.map_some, optSuf]; rw [mapToUri_append, mapToUri_ascii hd]
  have ha : (parts (uriBuilder b)).authority = (parts b).authority.map mapToUri := by
    show (b.authority.map uriAuthority).map (fun a => (authParts a).recompose) =
      (b.authority.map fun a => (authParts a).recompose).map mapToUri
    cases hb : b.authority with
    | none => rfl
    | some a => exact congrArg some (uriAuthority_text (h.authority a hb).1)
  unfold Parts.recompose
  rw [ha]
  simp only [mapToUri_append]
  congr 1
  · show optPre b.scheme [':'] = mapToUri (optPre b.scheme [':'])
    cases hs : b.scheme with
    | none => rfl
    | some x =>
      simp only [optPre]
      rw [mapToUri_append, mapToUri_ascii (scheme_all_ascii (h.scheme x hs))]; rfl
  congr 1
  · exact hsuf _ _ (by decide)
  congr 1
  congr 1
  · exact hsuf _ _ (by decide)
  · exact hsuf _ _ (by decide)

/-- **C80.**  A builder that builds an IRI (of any kind, without normalization) builds a URI of that kind
when its texts are encoded, and this URI is the IRI converted. -/
theorem C80_build (S : Spec) (k : IriKind) (b : Builder) (hn : b.normalize = false) (B : Built)
    (hB : b.build S k = some (some B)) :
    ∃ B' s u, (uriBuilder b).build .uri k = some (some B') ∧ B.display S = some s ∧
      encode_to_uri s = some u ∧ B'.display .uri = some u := by
  have ha : Acceptable S k b := by
    apply Classical.byContradiction
    intro h
    rw [(C28_build_raw S k b hn).2 h] at hB
    cases hB
  obtain ⟨B1, h1, h2⟩ := (C28_build_raw S k b hn).1 ha
  rw [hB] at h1
  cases h1
  obtain ⟨B', h3, h4⟩ := (C28_build_raw .uri k (uriBuilder b) hn).1 (acceptable_uri ha)
  exact ⟨B', _, _, h3, h2, (C24_variants_agree _).1, by rw [h4, uriBuilder_text ha]⟩

/-- A builder that `C80_build` is about. -/
example : ∃ B, Builder.build .iri .iri { scheme := some ['a'], authority := some { host := .string [Char.ofNat 233] }, path := ['/', Char.ofNat 233] } =
    some (some B) := ⟨⟨{ scheme := some ['a'], authority := some { host := .string [Char.ofNat 233] }, path := ['/', Char.ofNat 233] }, true⟩, by decide +kernel⟩

/-! ### The normalizing builder -/

theorem mapParts_recompose' {p : Parts} (h : ∀ x, p.scheme = some x → ∀ c ∈ x, c.toNat < 128) :
    (mapParts p).recompose = mapToUri p.recompose := by
  unfold Parts.recompose
  simp only [mapToUri_append]
  congr 1
  · simp only [mapParts]
    cases hs : p.scheme with
    | none => rfl
    | some x =>
      simp only [optPre]
      rw [mapToUri_append, mapToUri_ascii (h x hs)]; rfl
  have hsuf : ∀ (d : Str) (o : Option Str), (∀ c ∈ d, c.toNat < 128) →
      optSuf d (o.map mapToUri) = mapToUri (optSuf d o) := by
    intro d o hd
    cases o with
    | none => rfl
    | some x => simp only [Option.map_some, optSuf]; rw [mapToUri_append, mapToUri_ascii hd]
  congr 1
  · exact hsuf _ _ (by decide)
  congr 1
  congr 1
  · exact hsuf _ _ (by decide)
  · exact hsuf _ _ (by decide)

/-- The components other than the path are mapped by the conversion, path or no path. -/
theorem normParts_uriBuilder {S : Spec} {k : IriKind} {b : Builder} (h : Acceptable S k b) :
    ({ normParts .uri .default (parts (uriBuilder b)) with path := [] } : Parts) =
      mapParts { normParts S .default (parts b) with path := [] } := by
  have hv : Parts.Valid S { parts b with path := [] } :=
    parts_valid (k := k) (b := { b with path := [] })
      ⟨by cases k <;> exact h.kind, h.scheme, h.authority, (by intros; exact .inl rfl),
        (by intro _ _ r e; cases e), (by rintro _ _ ⟨a, c, e, _⟩; cases a <;> cases e), h.query, h.fragment⟩
      (path_iff.2 .nil) (by intro _ r e; cases e)
  have ha : (parts (uriBuilder b)).authority = (parts b).authority.map mapToUri := by
    show (b.authority.map uriAuthority).map (fun a => (authParts a).recompose) =
      (b.authority.map fun a => (authParts a).recompose).map mapToUri
    cases hb : b.authority with
    | none => rfl
    | some a => exact congrArg some (uriAuthority_text (h.authority a hb).1)
  have e := normParts_map (op := .default) hv
  have e1 : mapParts { parts b with path := [] } = { parts (uriBuilder b) with path := [] } := by
    unfold mapParts
    rw [← ha]
    rfl
  rw [e1] at e
  have g1 := congrArg Parts.scheme e
  have g2 := congrArg Parts.authority e
  have g3 := congrArg Parts.query e
  have g4 := congrArg Parts.fragment e
  simp only [normParts, mapParts] at g1 g2 g3 g4 ⊢
  rw [g1, g2, g3, g4]
  rfl

theorem outPath_uriBuilder {S : Spec} {b : Builder} (hn : b.normalize = true) (hw : WF b.path) :
    outPath .uri (uriBuilder b) = mapToUri (outPath S b) := by
  have hs : (mapToUri (pathn S .default false b.path) = ['/']) = (pathn S .default false b.path = ['/']) := by
    apply propext
    constructor
    · intro h
      obtain ⟨r, e1, e2⟩ := map_slash ⟨[], h⟩
      rw [h] at e2
      have := (List.cons.inj e2).2.symm
      rw [mapToUri_empty] at this
      rw [e1, this]
    · intro h
      rw [h]
      decide
  have hauth : (b.authority.map uriAuthority ≠ none) = (b.authority ≠ none) := by simp
  unfold outPath
  simp only [uriBuilder, hn, Bool.true_eq_false, if_false, map_take1, pathn_map (S := S) hw, ne_eq, hs,
    Option.map_eq_none_iff, Option.isSome_map, pctn_map (S := S) hw]
  split <;> rfl

/-- **C80.**  The same for a builder with normalization: what the IRI builder writes, converted, is what the
URI builder writes from the encoded texts.  (`b.path` must not have a stray `%`: with one the normalizing
builder of the crate panics, C28.) -/
theorem C80_build_normalizing (S : Spec) (k : IriKind) (b : Builder) (hn : b.normalize = true)
    (hp : NoStrayPercent b.path) (B : Built) (hB : b.build S k = some (some B)) :
    ∃ B' s u, (uriBuilder b).build .uri k = some (some B') ∧ B.display S = some s ∧
      encode_to_uri s = some u ∧ B'.display .uri = some u := by
  have hw := wf_of_noStray hp
  have ha : Acceptable S k b := by
    apply Classical.byContradiction
    intro h
    rw [(build_eq (S := S) (b := b) (fun _ => hw) k).2 h] at hB
    cases hB
  obtain ⟨B1, h1, _, h2⟩ := (build_eq (S := S) (b := b) (fun _ => hw) k).1 ha
  rw [hB] at h1
  cases h1
  obtain ⟨B', h3, _, h4⟩ := (build_eq (S := .uri) (b := uriBuilder b) (fun _ => mapToUri_WF hw) k).1
    (acceptable_uri ha)
  refine ⟨B', _, _, h3, h2, (C24_variants_agree _).1, ?_⟩
  rw [h4]
  congr 1
  have e := normParts_uriBuilder ha
  have hn' : (uriBuilder b).normalize = true := hn
  have e1 : outParts .uri (uriBuilder b) = mapParts (outParts S b) := by
    have g1 := congrArg Parts.scheme e
    have g2 := congrArg Parts.authority e
    have g3 := congrArg Parts.query e
    have g4 := congrArg Parts.fragment e
    unfold outParts
    simp only [hn, hn', Bool.true_eq_false, if_false]
    simp only [mapParts, outPath_uriBuilder (S := S) hn hw] at g1 g2 g3 g4 ⊢
    simp only [g1, g2, g3, g4]
  rw [e1]
  refine mapParts_recompose' fun x hx c hc => ?_
  unfold outParts at hx
  simp only [hn, Bool.true_eq_false, if_false, normParts, NormalizationMode.case_pct, if_true, parts,
    Option.map_eq_some_iff] at hx
  obtain ⟨y, hy, rfl⟩ := hx
  obtain ⟨d, hd, rfl⟩ := List.mem_map.1 hc
  exact toLower_ascii (scheme_all_ascii (ha.scheme y hy) d hd)

/-- A builder that `C80_build_normalizing` is about, with a percent-encoded character that only the IRI
builder decodes. -/
example : ∃ B, Builder.build .iri .reference { path := chars! "//b/../%c3%a9", scheme := some ['A'], normalize := true } =
      some (some B) ∧ B.display .iri = some (chars! "a:/.//é") ∧
    ∃ B', Builder.build .uri .reference { path := chars! "//b/../%c3%a9", scheme := some ['A'], normalize := true } =
      some (some B') ∧ B'.display .uri = some (chars! "a:/.//%C3%A9") :=
  ⟨⟨{ path := chars! "//b/../%c3%a9", scheme := some ['A'], normalize := true }, true⟩, by decide +kernel,
    by decide +kernel, ⟨{ path := chars! "//b/../%c3%a9", scheme := some ['A'], normalize := true }, true⟩,
    by decide +kernel, by decide +kernel⟩

end Verif
