import Verif.Props.TemplateComponents
import Verif.Props.Decode
import Verif.Props.Encode
import Verif.Spec.TemplateRead

/-!
# C65: what an expression writes can be read back
-/

namespace Verif

open Verif.Abnf Verif.Rfc Verif.Rfc6570 Verif.Tpl Verif.MaybePct

/-! ## Splitting -/

theorem splitAt_none {c : Char} {s : Str} (h : c ∉ s) : Rfc6570.splitAt c s = [s] := by
  induction s with
  | nil => rfl
  | cons d s ih =>
    have h1 : d ≠ c := fun e => h (by simp [e])
    have h2 : c ∉ s := fun e => h (by simp [e])
    simp only [Rfc6570.splitAt, if_neg h1, ih h2]

theorem splitAt_cons {c : Char} {a s : Str} (h : c ∉ a) : Rfc6570.splitAt c (a ++ c :: s) = a :: Rfc6570.splitAt c s := by
  induction a with
  | nil => simp [Rfc6570.splitAt]
  | cons d a ih =>
    have h1 : d ≠ c := fun e => h (by simp [e])
    have h2 : c ∉ a := fun e => h (by simp [e])
    simp only [List.cons_append, Rfc6570.splitAt, if_neg h1, ih h2]

theorem splitAt_join {c : Char} {l : List Str} (h0 : l ≠ []) (h : ∀ x ∈ l, c ∉ x) :
    Rfc6570.splitAt c (joinWith [c] l) = l := by
  induction l with
  | nil => exact absurd rfl h0
  | cons x l ih =>
    cases l with
    | nil => exact splitAt_none (h x (by simp))
    | cons y l =>
      have : joinWith [c] (x :: y :: l) = x ++ c :: joinWith [c] (y :: l) := by simp [joinWith]
      rw [this, splitAt_cons (h x (by simp)), ih (by simp) (fun z hz => h z (by simp [hz]))]

theorem joinWith_append {sep : Str} {a b : List Str} (ha : a ≠ []) (hb : b ≠ []) :
    joinWith sep (a ++ b) = joinWith sep a ++ sep ++ joinWith sep b := by
  cases a with
  | nil => exact absurd rfl ha
  | cons x a =>
    cases b with
    | nil => exact absurd rfl hb
    | cons y b => simp [joinWith_cons, List.flatMap_append]

theorem joinWith_flatten {sep : Str} {ls : List (List Str)} (h : ∀ l ∈ ls, l ≠ []) :
    joinWith sep (ls.map (joinWith sep)) = joinWith sep ls.flatten := by
  induction ls with
  | nil => rfl
  | cons l ls ih =>
    have ih := ih fun l hl => h l (by simp [hl])
    cases ls with
    | nil => simp [joinWith]
    | cons m ls =>
      have hne : (m :: ls).flatten ≠ [] := by
        have := h m (by simp)
        cases m with
        | nil => exact absurd rfl this
        | cons a m => simp
      rw [List.flatten_cons, joinWith_append (h l (by simp)) hne, ← ih]
      simp [joinWith]

/-! ## Decoding -/

theorem wf_no_stray {x : Str} (h : WF x) : DecTok.stray ∉ decToks (utf8s x) := by
  induction h with
  | nil => rw [utf8s_nil, decToks_nil]; simp
  | @chr c r hc _ _ ih =>
    rw [utf8s_cons]
    have : decToks (utf8 c ++ utf8s r) = (utf8 c).map .plain ++ decToks (utf8s r) := by
      apply decToks_plains
      intro b hb e
      by_cases ha : c.toNat < 128
      · rw [utf8_ascii ha] at hb
        simp at hb
        exact hc ((char_eq_iff c '%').2 (by rw [← hb, e]; rfl))
      · have := (utf8_nonascii (c := c) (by omega) b hb).1
        omega
    rw [this, List.mem_append]
    rintro (h | h)
    · exact plains_no_stray h
    · exact ih h
  | @pct h l r hh hl _ ih =>
    have hx : ∀ c : Char, isHex c = hexByte c.toNat := fun c => rfl
    have e25 : utf8 '%' = [0x25] := by decide
    rw [utf8s_cons, utf8s_cons, utf8s_cons, e25, utf8_ascii (isHex_lt hh), utf8_ascii (isHex_lt hl)]
    simp only [List.cons_append, List.nil_append]
    rw [decToks_triplet (by rw [← hx]; exact hh) (by rw [← hx]; exact hl)]
    simpa using ih

theorem decode_wf {x s : Str} (h : WF x) (hd : pctDecode x = utf8s s) : into_string (utf8s x) = some (some s) := by
  obtain ⟨r, h1, h2⟩ := C23_into_string_partial (utf8s x) (wf_no_stray h)
  rw [h1, (h2 s).2 (by rw [C23_text, hd])]

theorem decode_encU (S : Spec) (s : Str) : into_string (utf8s (encU S s)) = some (some s) := by
  refine decode_wf (pc_encU S s).wf ?_
  have := (C22_encode S .unreserve [s]).2.1
  rw [← unreserve_eq]
  simpa [unreserve] using this

theorem encU_plain {S : Spec} {s : Str} (h : ∀ c ∈ s, iunreserved S c = true) : encU S s = s := by
  induction s with
  | nil => rfl
  | cons c s ih =>
    have h1 := h c (by simp)
    have h2 := ih fun c hc => h c (by simp [hc])
    unfold encU at h2 ⊢
    rw [List.flatMap_cons, h2]
    simp [h1]

theorem encU_name {S : Spec} {n : Str} (h : varnameX n) (hp : '%' ∉ n) : encU S n = n := by
  refine encU_plain fun c hc => ?_
  have := pc_name (S := S) h
  clear h
  induction this with
  | nil => cases hc
  | chr _ h2 _ ih =>
    rcases List.mem_cons.1 hc with rfl | hc
    · exact h2
    · exact ih (fun e => hp (by simp [e])) hc
  | pct _ _ _ _ => exact absurd (by simp) hp

theorem encU_no_delim {S : Spec} {s : Str} {d : Char} (hd : (gen_delims d || sub_delims d) = true) : d ∉ encU S s := by
  intro hm
  have : d ∈ delims (encU S s) := List.mem_filter.2 ⟨hm, hd⟩
  rw [delims_unreserved (pc_encU S s)] at this
  cases this

/-! ## Pieces -/

/-- The two inner levels of the reader. -/
def read2 (x : Str) : List (List (Option (Option Str))) :=
  (Rfc6570.splitAt '=' x).map fun y => (Rfc6570.splitAt ',' y).map fun z => into_string (utf8s z)

/-- What was read without failure. -/
def ok3 (l : List (List Str)) : List (List (Option (Option Str))) := l.map (List.map fun s => some (some s))

theorem read2_encU (S : Spec) (s : Str) : read2 (encU S s) = ok3 [[s]] := by
  unfold read2 ok3
  rw [splitAt_none (encU_no_delim (by decide))]
  simp only [List.map_cons, List.map_nil]
  rw [splitAt_none (encU_no_delim (by decide))]
  simp [decode_encU]

theorem members_read (S : Spec) {items : List Str} (h0 : items ≠ []) :
    (Rfc6570.splitAt ',' (joinWith [','] (items.map (encU S)))).map (fun z => into_string (utf8s z)) =
      items.map fun s => some (some s) := by
  rw [splitAt_join (by simpa using h0) (by
    intro x hx
    obtain ⟨s, _, rfl⟩ := List.mem_map.1 hx
    exact encU_no_delim (by decide))]
  simp [decode_encU]

theorem members_no {S : Spec} {items : List Str} {d : Char} (hd : (gen_delims d || sub_delims d) = true)
    (hc : d ≠ ',') : d ∉ joinWith [','] (items.map (encU S)) := by
  intro hm
  cases items with
  | nil => simp [joinWith] at hm
  | cons i items =>
    rw [List.map_cons, joinWith_cons] at hm
    simp only [List.mem_append, List.mem_flatMap, List.mem_map] at hm
    rcases hm with hm | ⟨_, ⟨s, _, rfl⟩, hm⟩
    · exact encU_no_delim hd hm
    · simp [hc] at hm
      exact encU_no_delim hd hm

theorem read2_members (S : Spec) {items : List Str} (h0 : items ≠ []) :
    read2 (joinWith [','] (items.map (encU S))) = ok3 [items] := by
  unfold read2 ok3
  rw [splitAt_none (members_no (by decide) (by decide))]
  simp only [List.map_cons, List.map_nil]
  rw [members_read S h0]

theorem read2_named (S : Spec) {n : Str} (hn : encU S n = n) {items : List Str} (h0 : items ≠ []) :
    read2 (n ++ '=' :: joinWith [','] (items.map (encU S))) = ok3 [[n], items] := by
  unfold read2 ok3
  have h1 : '=' ∉ n := by rw [← hn]; exact encU_no_delim (by decide)
  have h2 : ',' ∉ n := by rw [← hn]; exact encU_no_delim (by decide)
  have h3 := decode_encU S n
  rw [hn] at h3
  rw [splitAt_cons h1, splitAt_none (members_no (by decide) (by decide))]
  simp only [List.map_cons, List.map_nil]
  rw [members_read S h0, splitAt_none h2]
  simp [h3]

theorem read2_pair (S : Spec) (k x : Str) : read2 (encU S k ++ '=' :: encU S x) = ok3 [[k], [x]] := by
  unfold read2 ok3
  rw [splitAt_cons (encU_no_delim (by decide)), splitAt_none (encU_no_delim (by decide))]
  simp only [List.map_cons, List.map_nil]
  rw [splitAt_none (encU_no_delim (by decide)), splitAt_none (encU_no_delim (by decide))]
  simp [decode_encU]

theorem allSome_map {α β : Type} {f : α → Option β} {g : α → β} {l : List α} (h : ∀ a ∈ l, f a = some (g a)) :
    allSome (l.map f) = some (l.map g) := by
  induction l with
  | nil => rfl
  | cons a l ih =>
    simp only [List.map_cons, allSome, h a (by simp), ih fun a ha => h a (by simp [ha]), Option.bind_some,
      Option.map_some]

theorem join_entries (S : Spec) (es : List (Str × Str)) :
    joinWith [','] (es.map fun e => encU S e.1 ++ ',' :: encU S e.2) =
      joinWith [','] ((es.flatMap fun e => [e.1, e.2]).map (encU S)) := by
  have : (es.map fun e => encU S e.1 ++ ',' :: encU S e.2) =
      (es.map fun e => [encU S e.1, encU S e.2]).map (joinWith [',']) := by
    simp [joinWith]
  rw [this, joinWith_flatten (by
    intro l hl
    obtain ⟨e, _, rfl⟩ := List.mem_map.1 hl
    simp)]
  congr 1
  induction es with
  | nil => rfl
  | cons e es ih => simp only [List.map_cons, List.flatten_cons, List.flatMap_cons, List.map_append] at ih ⊢
                    rw [ih (by simp [joinWith])]; rfl

section

variable {S : Spec} {dbg : Bool} {op : Option Char} {sep : Char}

/-- The operators whose separator cannot occur in an encoded value. -/
def Readable (op : Option Char) (sep : Char) : Prop :=
  (op, sep) = (none, ',') ∨ (op, sep) = (some '/', '/') ∨ (op, sep) = (some ';', ';') ∨
    (op, sep) = (some '?', '&') ∨ (op, sep) = (some '&', '&')

theorem Readable.facts (h : Readable op sep) : (row op).sep = [sep] ∧ (row op).reserved = false ∧
    (gen_delims sep || sub_delims sep) = true ∧ sep ≠ '=' ∧ ((row op).named = true → sep ≠ ',') ∧
    (sep = ',' ∨ (row op).sep ≠ [',']) := by
  rcases h with h | h | h | h | h <;> cases h <;> decide

theorem members_pieces (h : Readable op sep) {n : Str} (hn : encU S n = n) {items : List Str} (h0 : items ≠ []) :
    ∃ ps : List Str, ps ≠ [] ∧
      (if (row op).named then n ++ ['='] else []) ++ joinWith [','] (items.map (encU S)) = joinWith (row op).sep ps ∧
      (∀ p ∈ ps, sep ∉ p) ∧ ps.map read2 = (membersRead (row op) n items).map ok3 := by
  obtain ⟨f1, f2, f3, f4, f5, f6⟩ := h.facts
  unfold membersRead
  cases hna : (row op).named with
  | true =>
    have hs := f5 hna
    simp only [if_true]
    refine ⟨[n ++ '=' :: joinWith [','] (items.map (encU S))], by simp, by simp [joinWith], ?_, ?_⟩
    · intro p hp
      rw [List.mem_singleton.1 hp]
      simp only [List.mem_append, List.mem_cons]
      rintro (h | h | h)
      · rw [← hn] at h; exact encU_no_delim f3 h
      · exact f4 h
      · exact members_no f3 hs h
    · simp [read2_named S hn h0]
  | false =>
    simp only [Bool.false_eq_true, if_false, List.nil_append]
    by_cases hc : sep = ','
    · subst hc
      rw [f1, if_pos rfl]
      refine ⟨items.map (encU S), by simpa using h0, rfl, ?_, ?_⟩
      · intro p hp
        obtain ⟨s, _, rfl⟩ := List.mem_map.1 hp
        exact encU_no_delim f3
      · simp [read2_encU]
    · have : (row op).sep ≠ [','] := by rw [f1]; simpa using hc
      rw [if_neg this]
      refine ⟨[joinWith [','] (items.map (encU S))], by simp, by simp [joinWith], ?_, ?_⟩
      · intro p hp
        rw [List.mem_singleton.1 hp]
        exact members_no f3 hc
      · simp [read2_members S h0]

theorem var_pieces (h : Readable op sep) {v : Var} (hv : varnameX v.name) (hp : '%' ∉ v.name)
    (hm : v.hasPrefix = false) {val : Value} (hd : (flat val).defined = true) {t : Str}
    (ht : varExact S dbg (row op) v val = some t) :
    ∃ ps : List Str, ps ≠ [] ∧ t = joinWith (row op).sep ps ∧ (∀ p ∈ ps, sep ∉ p) ∧
      ps.map read2 = (varRead (row op) v (flat val)).map ok3 := by
  obtain ⟨f1, f2, f3, f4, f5, f6⟩ := h.facts
  have hn := encU_name (S := S) hv hp
  have hmem : ∀ d : List Str, memberText S dbg (row op) d = some (encU S d.flatten) := fun d => by
    simp [memberText, f2]
  have hns : sep ∉ v.name := by rw [← hn]; exact encU_no_delim f3
  cases val with
  | undefined => simp [flat, Val.defined] at hd
  | string d =>
    have hst : stringText S dbg (row op) v.mod d = some (encU S d.flatten) := by
      unfold stringText
      obtain ⟨n, m⟩ := v
      cases m with
      | pre ds => simp [Var.hasPrefix] at hm
      | none => simp [f2]
      | explode => simp [f2]
    simp only [varExact, hst, Option.map_some, Option.some.injEq] at ht
    subst ht
    simp only [flat, varRead]
    have he : encU S d.flatten = [] ↔ d.flatten = [] := by
      constructor
      · intro e
        have := decode_encU S d.flatten
        rw [e] at this
        have h2 := decode_encU S []
        rw [show encU S [] = [] from rfl] at h2
        rw [this] at h2
        simpa using h2
      · intro e; rw [e]; rfl
    refine ⟨[_], by simp, (by simp [joinWith]; rfl), ?_, ?_⟩
    · intro p hpm
      rw [List.mem_singleton.1 hpm]
      split
      · simp only [List.mem_append]
        rintro (h | h)
        · exact hns h
        · split at h
          · have : (row op).ifemp = [] ∨ (row op).ifemp = ['='] := by
              rcases ‹Readable op sep› with h | h | h | h | h <;> cases h <;> decide
            rcases this with e | e <;> rw [e] at h <;> simp at h
            exact f4 h
          · rcases List.mem_cons.1 h with h | h
            · exact f4 h
            · exact encU_no_delim f3 h
      · exact encU_no_delim f3
    · simp only [List.map_cons, List.map_nil, List.cons.injEq, and_true]
      cases hna : (row op).named with
      | false => simp [read2_encU]
      | true =>
        simp only [if_true, he]
        by_cases h0 : d.flatten = []
        · simp only [h0, if_true, true_and]
          by_cases h1 : (row op).ifemp = []
          · simp only [h1, List.append_nil, if_true]
            have := read2_encU S v.name
            rwa [hn] at this
          · have h2 : (row op).ifemp = ['='] := by
              rcases ‹Readable op sep› with h | h | h | h | h <;> cases h <;> first | decide | exact absurd (by decide) h1
            rw [if_neg h1, h2]
            have := read2_pair S v.name []
            rw [hn] at this
            simpa [encU] using this
        · simp only [h0, if_false, false_and]
          have := read2_pair S v.name d.flatten
          rwa [hn] at this
  | list items =>
    have h0 : items.map List.flatten ≠ [] := by
      intro e; rw [flat, e] at hd; simp [Val.defined] at hd
    simp only [varExact, hm, Bool.false_eq_true, if_false] at ht
    rw [allSome_map (g := fun d => encU S d.flatten) (fun d _ => hmem d)] at ht
    simp only [Option.map_some, Option.some.injEq] at ht
    subst ht
    have em : (items.map fun d : List Str => encU S d.flatten) = (items.map List.flatten).map (encU S) := by simp
    rw [em]
    simp only [flat, varRead]
    generalize items.map List.flatten = its at h0 ⊢
    unfold listText
    by_cases hx : v.mod = .explode
    · simp only [hx, if_true]
      cases hna : (row op).named with
      | true =>
        simp only [if_true]
        refine ⟨its.map fun i => v.name ++ '=' :: encU S i, by simpa using h0, ?_, ?_, ?_⟩
        · cases its with
          | nil => exact absurd rfl h0
          | cons i r => simp [hn, Function.comp_def]
        · intro p hpm
          obtain ⟨i, _, rfl⟩ := List.mem_map.1 hpm
          simp only [List.mem_append, List.mem_cons]
          rintro (h | h | h)
          · exact hns h
          · exact f4 h
          · exact encU_no_delim f3 h
        · rw [List.map_map, List.map_map]
          refine List.map_congr_left fun i _ => ?_
          have := read2_pair S v.name i
          rwa [hn] at this
      | false =>
        simp only [Bool.false_eq_true, if_false]
        refine ⟨its.map (encU S), by simpa using h0, rfl, ?_, ?_⟩
        · intro p hpm
          obtain ⟨i, _, rfl⟩ := List.mem_map.1 hpm
          exact encU_no_delim f3
        · simp [read2_encU]
    · simp only [hx, if_false]
      exact members_pieces h hn h0
  | assoc es =>
    have h0 : (es.map fun e => (e.1.flatten, e.2.flatten)) ≠ [] := by
      intro e; rw [flat, e] at hd; simp [Val.defined] at hd
    simp only [varExact, hm, Bool.false_eq_true, if_false] at ht
    rw [allSome_map (g := fun e : List Str × List Str => (encU S e.1.flatten, encU S e.2.flatten))
      (fun e _ => by simp [hmem])] at ht
    simp only [Option.map_some, Option.some.injEq] at ht
    subst ht
    have em : (es.map fun e : List Str × List Str => (encU S e.1.flatten, encU S e.2.flatten)) =
        (es.map fun e => (e.1.flatten, e.2.flatten)).map fun e => (encU S e.1, encU S e.2) := by simp
    rw [em]
    simp only [flat, varRead]
    generalize (es.map fun e => (e.1.flatten, e.2.flatten)) = its at h0 ⊢
    unfold assocText
    by_cases hx : v.mod = .explode
    · simp only [hx, if_true]
      refine ⟨its.map fun e => encU S e.1 ++ '=' :: encU S e.2, by simpa using h0, by simp [Function.comp_def], ?_, ?_⟩
      · intro p hpm
        obtain ⟨i, _, rfl⟩ := List.mem_map.1 hpm
        simp only [List.mem_append, List.mem_cons]
        rintro (h | h | h)
        · exact encU_no_delim f3 h
        · exact f4 h
        · exact encU_no_delim f3 h
      · simp [read2_pair]
    · simp only [hx, if_false, List.map_map]
      have := join_entries S its
      have e2 : (List.map ((fun e : Str × Str => e.1 ++ ',' :: e.2) ∘ fun e => (encU S e.1, encU S e.2)) its) =
        its.map fun e => encU S e.1 ++ ',' :: encU S e.2 := rfl
      rw [e2, this, hn]
      exact members_pieces h hn (by
        cases its with
        | nil => exact absurd rfl h0
        | cons e r => simp)

end

/-- **C65**: an expression with one of the operators none, `/`, `;`, `?`, `&` writes nothing if none of its
variables is defined; otherwise what follows its leading character is read back, by splitting at the
separator, at `=` and at `,` and percent-decoding with the crate's own decoder, as exactly the names and
values that the context handed out. -/
theorem C65_read_back (S : Spec) (dbg : Bool) (ctx : Ctx) (op : Option Char) (sep : Char) (vars : List Var) (out : Str)
    (hop : (op, sep) = (none, ',') ∨ (op, sep) = (some '/', '/') ∨ (op, sep) = (some ';', ';') ∨
      (op, sep) = (some '?', '&') ∨ (op, sep) = (some '&', '&'))
    (ha : Accepted [.expr op vars]) (hv : ∀ v ∈ vars, '%' ∉ v.name ∧ v.hasPrefix = false)
    (h : expand_to_string S dbg ctx (text [.expr op vars]) = .ok out) :
    ((∀ v ∈ vars, (flat (ctx .expand v.name)).defined = false) ∧ out = []) ∨
    ((∃ v ∈ vars, (flat (ctx .expand v.name)).defined = true) ∧
      ∃ body, out = op.toList ++ body ∧
        readBack (fun x => into_string (utf8s x)) sep body =
          (exprRead (fun n => flat (ctx .expand n)) op vars).map (List.map (List.map fun s => some (some s)))) := by
  have he := expands_exact (S := S) (dbg := dbg) (ctx := ctx) ha h
  rw [expansionExact_cons] at he
  obtain ⟨y, z, hy, hz, rfl⟩ := he
  rw [expansionExact_nil] at hz
  subst hz
  have hr : Readable op sep := hop
  obtain ⟨f1, -⟩ := hr.facts
  have hw := (ha _ (List.mem_singleton.2 rfl)).2.2
  simp only [pieceExact, exprExact, Option.map_eq_some_iff] at hy
  obtain ⟨parts, hparts, rfl⟩ := hy
  -- the pieces of all variables
  have key : ∀ (l : List Var) (parts : List Str), (∀ v ∈ l, v ∈ vars ∧ (flat (ctx .expand v.name)).defined = true) →
      allSome (l.map fun v => varExact S dbg (row op) v (ctx .expand v.name)) = some parts →
      ∃ pss : List (List Str), parts = pss.map (joinWith (row op).sep) ∧ (∀ ps ∈ pss, ps ≠ []) ∧
        (∀ p ∈ pss.flatten, sep ∉ p) ∧ pss.length = l.length ∧
        pss.flatten.map read2 = (l.flatMap fun v => varRead (row op) v (flat (ctx .expand v.name))).map ok3 := by
    intro l
    induction l with
    | nil =>
      intro parts _ hp
      simp [allSome] at hp
      subst hp
      exact ⟨[], rfl, by simp, by simp, rfl, rfl⟩
    | cons v l ih =>
      intro parts hl hp
      obtain ⟨t, ts, ht, hts, rfl⟩ := allSome_cons hp
      obtain ⟨pss, rfl, i2, i3, i4, i5⟩ := ih ts (fun w hw => hl w (by simp [hw])) hts
      obtain ⟨hvm, hvd⟩ := hl v (by simp)
      obtain ⟨ps, k1, rfl, k3, k4⟩ := var_pieces hr (hw v hvm).1 (hv v hvm).1 (hv v hvm).2 hvd ht
      refine ⟨ps :: pss, by simp, ?_, ?_, by simp [i4], ?_⟩
      · intro q hq
        rcases List.mem_cons.1 hq with rfl | hq
        · exact k1
        · exact i2 q hq
      · intro q hq
        rw [List.flatten_cons, List.mem_append] at hq
        rcases hq with hq | hq
        · exact k3 q hq
        · exact i3 q hq
      · rw [List.flatten_cons, List.map_append, List.flatMap_cons, List.map_append, k4, i5]
  obtain ⟨pss, rfl, p2, p3, p4, p5⟩ := key _ parts (fun v hv => List.mem_filter.1 hv) hparts
  cases hl : vars.filter fun v => (flat (ctx .expand v.name)).defined with
  | nil =>
    left
    rw [hl] at p4
    simp at p4
    subst p4
    refine ⟨fun v hv => ?_, rfl⟩
    cases hd : (flat (ctx .expand v.name)).defined with
    | false => rfl
    | true =>
      have : v ∈ vars.filter fun v => (flat (ctx .expand v.name)).defined := List.mem_filter.2 ⟨hv, hd⟩
      rw [hl] at this; cases this
  | cons v0 l =>
    right
    have hv0 : v0 ∈ vars.filter fun v => (flat (ctx .expand v.name)).defined := by rw [hl]; simp
    refine ⟨⟨v0, List.mem_filter.1 hv0⟩, joinWith (row op).sep (pss.map (joinWith (row op).sep)), ?_, ?_⟩
    · have hne : pss ≠ [] := by
        intro e; subst e; rw [hl] at p4; simp at p4
      have hfst : (row op).first = op.toList := by
        rcases hop with h | h | h | h | h <;> cases h <;> decide
      cases pss with
      | nil => exact absurd rfl hne
      | cons a r => simp [hfst]
    · rw [joinWith_flatten p2, f1]
      have hne : pss.flatten ≠ [] := by
        cases pss with
        | nil => rw [hl] at p4; simp at p4
        | cons a r =>
          have := p2 a (by simp)
          cases a with
          | nil => exact absurd rfl this
          | cons b a => simp
      unfold readBack
      rw [splitAt_join hne p3]
      exact p5

/-- **C65**: in particular two contexts for which such an expression writes the same text hand out, for the
variables it names, values that read the same. -/
theorem C65_injective (S : Spec) (dbg : Bool) (ctx ctx' : Ctx) (op : Option Char) (sep : Char) (vars : List Var) (out : Str)
    (hop : (op, sep) = (none, ',') ∨ (op, sep) = (some '/', '/') ∨ (op, sep) = (some ';', ';') ∨
      (op, sep) = (some '?', '&') ∨ (op, sep) = (some '&', '&'))
    (ha : Accepted [.expr op vars]) (hv : ∀ v ∈ vars, '%' ∉ v.name ∧ v.hasPrefix = false) (h0 : out ≠ [])
    (h : expand_to_string S dbg ctx (text [.expr op vars]) = .ok out)
    (h' : expand_to_string S dbg ctx' (text [.expr op vars]) = .ok out) :
    exprRead (fun n => flat (ctx .expand n)) op vars = exprRead (fun n => flat (ctx' .expand n)) op vars := by
  rcases C65_read_back S dbg ctx op sep vars out hop ha hv h with ⟨-, e⟩ | ⟨-, b, e1, e2⟩
  · exact absurd e h0
  rcases C65_read_back S dbg ctx' op sep vars out hop ha hv h' with ⟨-, e⟩ | ⟨-, b', e1', e2'⟩
  · exact absurd e h0
  have : b = b' := List.append_cancel_left (e1.symm.trans e1')
  subst this
  have inj : ∀ a b : List (List (List Str)),
      a.map (List.map (List.map fun s => some (some s))) = b.map (List.map (List.map fun s => some (some s))) → a = b := by
    intro a b
    refine (List.map_inj_right ?_).1
    intro x y
    refine (List.map_inj_right ?_).1
    intro x y
    refine (List.map_inj_right ?_).1
    intro x y h
    simpa using h
  exact inj _ _ (e2.symm.trans e2')

/-- **C65**, end to end: in a template with the query `{?…}` whose literals anchor the path, the expansion is a
valid reference whose query, as the crate's own accessor returns it, reads back as the values handed out;
there is no query if none of the variables is defined. -/
theorem C65_query (S : Spec) (dbg : Bool) (ctx : Ctx) (T : TemplateParts) (hf : T.Fits S) (hn : T.Anchored)
    (ha : Accepted T.pieces) (vars : List Var) (hq : T.query = .expr vars)
    (hv : ∀ v ∈ vars, '%' ∉ v.name ∧ v.hasPrefix = false) (out : Str)
    (h : expand_to_string S dbg ctx (text T.pieces) = .ok out) :
    validate_uri_reference S out = some true ∧
    ∃ q, RiReferenceStr.query_str out = some q ∧
      q.map (readBack (fun x => into_string (utf8s x)) '&') =
        if vars.any fun v => (flat (ctx .expand v.name)).defined then
          some ((exprRead (fun n => flat (ctx .expand n)) (some '?') vars).map
            (List.map (List.map fun s => some (some s))))
        else none := by
  obtain ⟨h1, p, he, -, -, -, -, h2, -⟩ := C64_anchored S dbg ctx T hf hn ha out h
  refine ⟨h1, p.query, h2, ?_⟩
  have hx := he.2.2.2.1
  rw [hq] at hx
  have ha' : Accepted [.expr (some '?') vars] := fun q hm => ha q (by
    simp only [TemplateParts.pieces, hq, TemplateQuery.pieces]
    simp only [List.mem_append]
    exact .inr (.inr (.inr (.inl hm))))
  rcases C65_read_back S dbg ctx (some '?') '&' vars _ (.inr (.inr (.inr (.inl rfl)))) ha' hv hx with
    ⟨k1, k2⟩ | ⟨⟨v, k1, k2⟩, b, k3, k4⟩
  · have : (vars.any fun v => (flat (ctx .expand v.name)).defined) = false := by
      simpa using k1
    rw [this]
    cases hp : p.query with
    | none => rfl
    | some q => rw [hp] at k2; simp [optSuf] at k2
  · have : (vars.any fun v => (flat (ctx .expand v.name)).defined) = true :=
      List.any_eq_true.2 ⟨v, k1, k2⟩
    rw [this]
    cases hp : p.query with
    | none => rw [hp] at k3; simp [optSuf] at k3
    | some q =>
      rw [hp] at k3
      have : q = b := by simpa [optSuf] using k3
      subst this
      simpa using k4

/-- Values full of the characters that separate things. -/
def readCtx : Ctx := fun _ n =>
  if n = ['a'] then .string [chars! "x&y=", chars! "z,é%20"]
  else if n = ['b'] then .list [[chars! "1,2"], [chars! "&"], [[]]]
  else if n = ['c'] then .assoc [([chars! "k=&"], [chars! "v;/"])]
  else if n = ['e'] then .string []
  else .undefined

def readVars : List Var := [⟨['a'], .none⟩, ⟨['b'], .none⟩, ⟨['b'], .explode⟩, ⟨['c'], .explode⟩, ⟨['d'], .none⟩, ⟨['e'], .none⟩]

/-- The theorem at work. -/
example : readBack (fun x => into_string (utf8s x)) '&'
    (chars! "a=x%26y%3Dz%2C%C3%A9%2520&b=1%2C2,%26,&b=1%2C2&b=%26&b=&k%3D%26=v%3B%2F&e=") =
    ([[[chars! "a"], [chars! "x&y=z,é%20"]], [[chars! "b"], [chars! "1,2", chars! "&", []]],
      [[chars! "b"], [chars! "1,2"]], [[chars! "b"], [chars! "&"]], [[chars! "b"], [[]]],
      [[chars! "k=&"], [chars! "v;/"]], [[chars! "e"], [[]]]] : List (List (List Str))).map
        (List.map (List.map fun s => some (some s))) := by
  rcases C65_read_back .uri true readCtx (some '?') '&' readVars
    (chars! "?a=x%26y%3Dz%2C%C3%A9%2520&b=1%2C2,%26,&b=1%2C2&b=%26&b=&k%3D%26=v%3B%2F&e=")
    (.inr (.inr (.inr (.inl rfl)))) (accepted_chars (by decide +kernel))
    (by decide +kernel) (by decide +kernel) with ⟨-, h⟩ | ⟨-, b, h, e⟩
  · exact absurd h (by decide)
  · have : b = _ := (List.cons.inj h).2.symm
    subst this
    rw [e]
    exact congrArg _ (by decide +kernel)

/-- `C65_query` at work on the template of C64. -/
example : ∃ q, RiReferenceStr.query_str
      (chars! "http://evil.example%2F%40@h.example:80/a/..%2Fx/%3F%23?q=a%26b%3D%23c#%23%3F") = some (some q) ∧
    readBack (fun x => into_string (utf8s x)) '&' q = [[[some (some (chars! "q"))], [some (some (chars! "a&b=#c"))]]] := by
  obtain ⟨_, q, h1, h2⟩ := C65_query .uri true componentsCtx componentsExample componentsExample_fits
    componentsExample_anchored componentsExample_accepted [⟨['q'], .none⟩, ⟨['r'], .none⟩] rfl (by decide +kernel)
    (chars! "http://evil.example%2F%40@h.example:80/a/..%2Fx/%3F%23?q=a%26b%3D%23c#%23%3F") (by decide +kernel)
  have e : (if ([⟨['q'], .none⟩, ⟨['r'], .none⟩] : List Var).any fun v => (flat (componentsCtx .expand v.name)).defined then
      some ((exprRead (fun n => flat (componentsCtx .expand n)) (some '?') [⟨['q'], .none⟩, ⟨['r'], .none⟩]).map
        (List.map (List.map fun s => some (some s)))) else none) =
      some [[[some (some (chars! "q"))], [some (some (chars! "a&b=#c"))]]] := by decide +kernel
  rw [e] at h2
  obtain ⟨q', rfl, h3⟩ := Option.map_eq_some_iff.1 h2
  exact ⟨q', h1, h3⟩

/-- Why the operators `.` and `+` are left out: a dot is unreserved, so it is not encoded in a value, and `+`
does not encode the comma; different values are written alike. -/
theorem C65_other_operators :
    (∃ ctx ctx' : Ctx, expand_to_string .uri false ctx (chars! "{.a,b}") = .ok (chars! ".x.y") ∧
      expand_to_string .uri false ctx' (chars! "{.a,b}") = .ok (chars! ".x.y") ∧
      flat (ctx .expand ['a']) ≠ flat (ctx' .expand ['a'])) ∧
    (∃ ctx ctx' : Ctx, expand_to_string .uri false ctx (chars! "{+a,b}") = .ok (chars! "x,y") ∧
      expand_to_string .uri false ctx' (chars! "{+a,b}") = .ok (chars! "x,y") ∧
      flat (ctx .expand ['a']) ≠ flat (ctx' .expand ['a'])) := by
  refine ⟨⟨fun _ n => if n = ['a'] then .string [chars! "x.y"] else .undefined,
      fun _ n => if n = ['a'] then .string [chars! "x"] else .string [chars! "y"], ?_⟩,
    ⟨fun _ n => if n = ['a'] then .string [chars! "x,y"] else .undefined,
      fun _ n => if n = ['a'] then .string [chars! "x"] else .string [chars! "y"], ?_⟩⟩ <;> decide +kernel

end Verif
