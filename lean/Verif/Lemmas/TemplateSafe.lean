import Verif.Lemmas.TemplateAgree
import Verif.Spec.TemplateSafe

/-!
# What a value can contribute to an expansion, for every value
-/

namespace Verif.Tpl

open Verif.Rfc Verif.Rfc6570 Verif.MaybePct

/-! ## The buffer of the decoder -/

/-- Triplets followed by a part of a triplet. -/
inductive Part : Str → Prop
  | nil : Part []
  | one : Part ['%']
  | two {h} : isHex h = true → Part ['%', h]
  | cons {h l r} : isHex h = true → isHex l = true → Part r → Part ('%' :: h :: l :: r)

theorem Part.pct {e : Str} (h : Part e) (hl : e.length % 3 = 0) : Part (e ++ ['%']) := by
  induction h with
  | nil => exact .one
  | one => simp at hl
  | two _ => simp at hl
  | cons h1 h2 _ ih => exact .cons h1 h2 (ih (by simp at hl; omega))

theorem Part.hex1 {e : Str} {c : Char} (h : Part e) (hl : e.length % 3 = 1) (hc : isHex c = true) :
    Part (e ++ [c]) := by
  induction h with
  | nil => simp at hl
  | one => exact .two hc
  | two _ => simp at hl
  | cons h1 h2 _ ih => exact .cons h1 h2 (ih (by simp at hl; omega))

theorem Part.hex2 {e : Str} {c : Char} (h : Part e) (hl : e.length % 3 = 2) (hc : isHex c = true) :
    Part (e ++ [c]) := by
  induction h with
  | nil => simp at hl
  | one => simp at hl
  | two h => exact .cons h hc .nil
  | cons h1 h2 _ ih => exact .cons h1 h2 (ih (by simp at hl; omega))

theorem Part.drop {e : Str} (h : Part e) (n : Nat) : Part (e.drop (n * 3)) := by
  induction h generalizing n with
  | nil => simpa using Part.nil
  | one => cases n with
    | zero => exact .one
    | succ n => simpa [Nat.succ_mul] using Part.nil
  | two h => cases n with
    | zero => exact .two h
    | succ n => simpa [Nat.succ_mul] using Part.nil
  | cons h1 h2 h3 ih => cases n with
    | zero => exact .cons h1 h2 h3
    | succ n => simpa [Nat.succ_mul] using ih n

theorem Part.take {e : Str} (h : Part e) (n : Nat) : Part (e.take (n * 3)) := by
  induction h generalizing n with
  | nil => simpa using Part.nil
  | one => cases n with
    | zero => exact .nil
    | succ n => simpa [Nat.succ_mul] using Part.one
  | two h => cases n with
    | zero => exact .nil
    | succ n => simpa [Nat.succ_mul] using Part.two h
  | cons h1 h2 h3 ih => cases n with
    | zero => exact .nil
    | succ n => simpa [Nat.succ_mul] using Part.cons h1 h2 (ih n)

theorem Part.pc {e : Str} (h : Part e) (hl : e.length % 3 = 0) (p : Char → Bool) : PC p e := by
  induction h with
  | nil => exact .nil
  | one => simp at hl
  | two _ => simp at hl
  | cons h1 h2 _ ih => exact .pct h1 h2 (ih (by simp at hl; omega))

/-- What the decoder hands on. -/
def PushOk : Push → Prop
  | .needMore => True
  | .decoded s => Part s ∧ s.length % 3 = 0
  | .undecodable s => Part s

theorem checkTriplets_ok {e e' : Str} {res : Push} (h : Part e) (hl : e.length % 3 = 0)
    (hc : checkTriplets e = some (some (e', res))) : Part e' ∧ PushOk res := by
  unfold checkTriplets at hc
  obtain ⟨d, _, hc⟩ := Option.bind_eq_some_iff.1 hc
  split at hc
  · simp at hc; obtain ⟨rfl, rfl⟩ := hc; exact ⟨.nil, h, hl⟩
  · split at hc
    · cases hc
    · split at hc
      · cases hc
      · simp at hc; obtain ⟨rfl, rfl⟩ := hc
        exact ⟨h.drop _, h.take _⟩

theorem pushLoop_ok {e e' s : Str} {k k' : Nat} {res : Push} (h : Part e)
    (hp : pushLoop e k s = some (e', k', res)) : Part e' ∧ PushOk res := by
  induction s generalizing e k with
  | nil => simp [pushLoop] at hp; obtain ⟨rfl, _, rfl⟩ := hp; exact ⟨h, trivial⟩
  | cons c r ih =>
    rw [pushLoop] at hp
    by_cases h0 : e.length % 3 = 0
    · rw [if_pos h0] at hp
      split at hp
      · simp at hp; obtain ⟨rfl, _, rfl⟩ := hp; exact ⟨.nil, h⟩
      · split at hp
        · cases hp
        · exact ih (h.pct h0) hp
    · rw [if_neg h0] at hp
      split at hp
      · simp at hp; obtain ⟨rfl, _, rfl⟩ := hp; exact ⟨.nil, h⟩
      · next hx =>
        have hx : isHex c = true := by simpa using hx
        by_cases h1 : e.length % 3 = 1
        · rw [if_pos h1] at hp
          exact ih (h.hex1 h1 hx) hp
        · rw [if_neg h1] at hp
          have h2 : e.length % 3 = 2 := by omega
          have hpart := h.hex2 h2 hx
          split at hp
          · cases hp
          · next hc =>
            simp at hp
            obtain ⟨rfl, _, rfl⟩ := hp
            exact checkTriplets_ok hpart (by simp; omega) hc
          · exact ih hpart hp

/-! ## The callbacks -/

/-- Fragments the decoder can produce. -/
def FragOk : Frag → Prop
  | .noPct _ => True
  | .stray => True
  | .char s => Part s ∧ s.length % 3 = 0
  | .invalid s => Part s ∧ s.length % 3 = 0

/-- The callback preserves `P`. -/
def Keeps {σ : Type} (f : Callback σ) (P : σ → Prop) : Prop :=
  ∀ st frag st' b, P st → FragOk frag → f st frag = some (st', b) → P st'

section keeps

variable {σ : Type} {f : Callback σ} {P : σ → Prop}

theorem andThen_keeps (hf : Keeps f P) {frag : Frag} {o : σ × Bool} {o' : σ × Bool} (ho : P o.1)
    (hfr : FragOk frag) (h : andThen f frag o = some o') : P o'.1 := by
  obtain ⟨st, b⟩ := o
  cases b with
  | true => simp [andThen] at h; subst h; exact ho
  | false => exact hf st frag o'.1 o'.2 ho hfr h

theorem undec_keeps (hf : Keeps f P) {st : σ} {s : Str} {o : σ × Bool} (hst : P st) (hs : Part s)
    (h : output_as_undecodable f st s = some o) : P o.1 := by
  unfold output_as_undecodable at h
  simp only at h
  rw [Option.bind_eq_some_iff] at h
  obtain ⟨o1, h1, h⟩ := h
  have e : s.length - s.length % 3 = (s.length / 3) * 3 := by omega
  have p1 : P o1.1 := by
    refine hf st _ o1.1 o1.2 hst ?_ h1
    rw [e]
    refine ⟨hs.take _, ?_⟩
    rw [List.length_take]; omega
  split at h
  · simp at h; subst h; exact p1
  · rw [Option.bind_eq_some_iff] at h
    obtain ⟨o2, h2, h⟩ := h
    have p2 : P o2.1 := andThen_keeps (frag := .stray) hf p1 trivial h2
    split at h
    · simp at h; subst h; exact p2
    · exact andThen_keeps (frag := .noPct _) hf p2 trivial h

theorem processPush_keeps (hf : Keeps f P) {st : σ} {res : Push} {o : σ × Bool} (hst : P st)
    (hr : PushOk res) (h : processPush f st res = some o) : P o.1 := by
  cases res with
  | needMore => simp [processPush] at h; subst h; exact hst
  | decoded s => exact hf st (.char s) o.1 o.2 hst hr h
  | undecodable s => exact undec_keeps hf hst hr h

theorem writeStep_keeps (hf : Keeps f P) {dbg : Bool} {st : σ} {enc rest enc' rest' : Str}
    {o : σ × Bool} (hst : P st) (he : Part enc)
    (h : writeStep dbg f st enc rest = some (o, enc', rest')) : P o.1 ∧ Part enc' := by
  unfold writeStep at h
  rw [Option.bind_eq_some_iff] at h
  obtain ⟨⟨e1, k, res⟩, h1, h⟩ := h
  obtain ⟨q1, q2⟩ := pushLoop_ok he h1
  simp only at h
  split at h
  · rw [Option.map_eq_some_iff] at h
    obtain ⟨⟨o2, r2⟩, h2, e⟩ := h
    simp at e
    obtain ⟨rfl, rfl, rfl⟩ := e
    refine ⟨?_, .nil⟩
    rw [Option.bind_eq_some_iff] at h2
    obtain ⟨⟨o1, r1⟩, h3, h4⟩ := h2
    have p1 : P o1.1 := by
      unfold flushRest at h3
      split at h3
      · simp at h3; rw [← h3.1]; exact hst
      · rw [Option.bind_eq_some_iff] at h3
        obtain ⟨o3, h5, h3⟩ := h3
        have := undec_keeps hf hst q1 h5
        split at h3
        · simp at h3; rw [← h3.1]; exact this
        · rw [Option.map_eq_some_iff] at h3
          obtain ⟨_, _, h3⟩ := h3
          simp at h3; rw [← h3.1]; exact this
    unfold plainPrefix at h4
    split at h4
    · simp at h4; rw [← h4.1]; exact p1
    · simp only at h4
      split at h4
      · cases h4
      · rw [Option.map_eq_some_iff] at h4
        obtain ⟨o4, h5, h4⟩ := h4
        simp at h4
        rw [← h4.1]
        exact hf _ (.noPct _) o4.1 o4.2 p1 trivial h5
  · rw [Option.bind_eq_some_iff] at h
    obtain ⟨o1, h2, h⟩ := h
    have p1 := processPush_keeps hf hst q2 h2
    split at h
    · simp at h; obtain ⟨rfl, rfl, rfl⟩ := h; exact ⟨p1, q1⟩
    · rw [Option.map_eq_some_iff] at h
      obtain ⟨_, _, h⟩ := h
      simp at h; obtain ⟨rfl, rfl, rfl⟩ := h; exact ⟨p1, q1⟩

theorem writeStr_keeps (hf : Keeps f P) {dbg : Bool} {fuel : Nat} {st : σ} {enc rest enc' : Str}
    {o : σ × Bool} (hst : P st) (he : Part enc)
    (h : writeStr dbg f fuel st enc rest = some (o, enc')) : P o.1 ∧ Part enc' := by
  induction fuel generalizing st enc rest with
  | zero => cases h
  | succ n ih =>
    rw [writeStr] at h
    split at h
    · simp at h; obtain ⟨rfl, rfl⟩ := h; exact ⟨hst, he⟩
    · rw [Option.bind_eq_some_iff] at h
      obtain ⟨⟨o1, e1, r1⟩, h1, h⟩ := h
      obtain ⟨p1, p2⟩ := writeStep_keeps hf hst he h1
      simp only at h
      split at h
      · simp at h; obtain ⟨rfl, rfl⟩ := h; exact ⟨p1, p2⟩
      · exact ih p1 p2 h

theorem writeAll_keeps (hf : Keeps f P) {dbg : Bool} {st : σ} {enc enc' : Str} {d : Disp}
    {o : σ × Bool} (hst : P st) (he : Part enc)
    (h : writeAll dbg f st enc d = some (o, enc')) : P o.1 ∧ Part enc' := by
  induction d generalizing st enc with
  | nil => simp [writeAll] at h; obtain ⟨rfl, rfl⟩ := h; exact ⟨hst, he⟩
  | cons s d ih =>
    rw [writeAll, Option.bind_eq_some_iff] at h
    obtain ⟨⟨o1, e1⟩, h1, h⟩ := h
    obtain ⟨p1, p2⟩ := writeStr_keeps hf hst he h1
    simp only at h
    split at h
    · simp at h; obtain ⟨rfl, rfl⟩ := h; exact ⟨p1, p2⟩
    · exact ih p1 p2 h

theorem process_keeps (hf : Keeps f P) {dbg : Bool} {st st' : σ} {d : Disp} (hst : P st)
    (h : process_percent_encoded_best_effort dbg f st d = some st') : P st' := by
  unfold process_percent_encoded_best_effort at h
  rw [Option.bind_eq_some_iff] at h
  obtain ⟨⟨o, e⟩, h1, h⟩ := h
  obtain ⟨p1, p2⟩ := writeAll_keeps hf hst .nil h1
  simp only at h
  split at h
  · simp at h; subst h; exact p1
  · split at h
    · simp at h; subst h; exact p1
    · rw [Option.map_eq_some_iff] at h
      obtain ⟨o2, h2, rfl⟩ := h
      exact undec_keeps hf p1 p2 h2

end keeps

/-! ## Encoded texts -/

/-- A character that may occur in a URI (IRI): unreserved, reserved, or (IRI) private. -/
def resourceChar (S : Spec) (c : Char) : Bool :=
  iunreserved S c || queryPrivate S c || gen_delims c || sub_delims c

theorem pc_triplets (p : Char → Bool) (c : Char) : PC p ((utf8 c).flatMap pctUpper) := by
  refine PC_pctUppers ?_
  intro b hb
  exact utf8_lt c b hb

theorem resourceChar_ne {S : Spec} {c : Char} (h : resourceChar S c = true) : c ≠ '%' := by
  rintro rfl
  cases S <;> exact absurd h (by decide)

theorem iunreserved_ne {S : Spec} {c : Char} (h : iunreserved S c = true) : c ≠ '%' := by
  rintro rfl
  cases S <;> exact absurd h (by decide)

theorem pc_encU (S : Spec) (s : Str) : PC (iunreserved S) (encU S s) := by
  induction s with
  | nil => exact .nil
  | cons c s ih =>
    unfold encU at ih ⊢
    rw [List.flatMap_cons]
    refine PC.append ?_ ih
    split
    · next h => exact .chr (iunreserved_ne h) h .nil
    · exact pc_triplets _ c

theorem pc_encR1 (S : Spec) (c : Char) : PC (resourceChar S) (encR1 S c) := by
  unfold encR1
  split
  · next h => exact .chr (resourceChar_ne h) h .nil
  · exact pc_triplets _ c

theorem pc_characters (S : Spec) (s : Str) : PC (resourceChar S) (characters S [s]) := by
  rw [characters_eq]
  induction s with
  | nil => exact .nil
  | cons c s ih => rw [List.flatMap_cons]; exact (pc_encR1 S c).append ih

theorem pc25 (p : Char → Bool) : PC p ['%', '2', '5'] := .pct (by decide) (by decide) .nil

theorem escapeFrag_keeps (S : Spec) : Keeps (escapeFrag S) (PC (resourceChar S)) := by
  intro st frag st' b hst hf h
  cases frag with
  | noPct s => simp [escapeFrag] at h; rw [← h.1]; exact hst.append (pc_characters S s)
  | stray => simp [escapeFrag] at h; rw [← h.1]; exact hst.append (pc25 _)
  | char s => simp [escapeFrag] at h; rw [← h.1]; exact hst.append (hf.1.pc hf.2 _)
  | invalid s => simp [escapeFrag] at h; rw [← h.1]; exact hst.append (hf.1.pc hf.2 _)

theorem unboundedFrag_keeps (S : Spec) : Keeps (unboundedFrag S) (PC (resourceChar S)) := by
  intro st frag st' b hst hf h
  unfold unboundedFrag at h
  split at h
  · split at h
    · cases h
    · exact escapeFrag_keeps S st _ st' b hst hf h
  · exact escapeFrag_keeps S st _ st' b hst hf h

theorem truncFrag_keeps (S : Spec) (dbg : Bool) :
    Keeps (truncFrag S dbg) (fun st => PC (resourceChar S) st.1) := by
  intro st frag st' b hst hf h
  unfold truncFrag at h
  split at h
  · simp at h; rw [← h.1]; exact hst
  · cases frag with
    | noPct s =>
      simp only at h
      rw [Option.bind_eq_some_iff] at h
      obtain ⟨n, _, h⟩ := h
      rw [Option.map_eq_some_iff] at h
      obtain ⟨m, _, h⟩ := h
      simp at h
      rw [← h.1]
      exact hst.append (pc_characters S _)
    | stray => simp at h; rw [← h.1]; exact hst.append (pc25 _)
    | char s => simp at h; rw [← h.1]; exact hst.append (hf.1.pc hf.2 _)
    | invalid s =>
      simp at h; rw [← h.1]
      refine hst.append ((hf.1.take _).pc ?_ _)
      rw [List.length_take]
      have := hf.2
      omega

theorem iun_resource {S : Spec} {s : Str} (h : PC (iunreserved S) s) : PC (resourceChar S) s :=
  h.mono fun c hc => by simp [resourceChar, hc]

theorem pc_escape_write {S : Spec} {dbg : Bool} {d : Disp} {a : Bool} {t : Str}
    (h : escape_write S dbg d a = some t) : PC (resourceChar S) t := by
  cases a with
  | false => rw [escape_write_nonreserved] at h; simp at h; subst h; exact iun_resource (pc_encU S _)
  | true => exact process_keeps (escapeFrag_keeps S) .nil h

theorem pc_truncate {S : Spec} {dbg : Bool} {n : Nat} {d : Disp} {t : Str}
    (h : truncateWrite S dbg n d = some t) :
    PC (iunreserved S) t ∧ (t = [] ↔ n = 0 ∨ d.flatten = []) := by
  induction d generalizing n t with
  | nil => simp [truncateWrite] at h; subst h; exact ⟨.nil, by simp⟩
  | cons s d ih =>
    by_cases hn : n = 0
    · subst hn; rw [truncateWrite_zero] at h; simp at h; subst h; exact ⟨.nil, by simp⟩
    · rw [truncateWrite, if_neg hn, Option.bind_eq_some_iff] at h
      obtain ⟨m, hm, h⟩ := h
      rw [Option.map_eq_some_iff] at h
      obtain ⟨t', h', rfl⟩ := h
      obtain ⟨i1, i2⟩ := ih h'
      rw [unreserve_eq]
      refine ⟨(pc_encU S _).append i1, ?_⟩
      rw [List.append_eq_nil_iff, encU_eq_nil, i2]
      cases s with
      | nil =>
        simp [lastIdx, usizeSub] at hm
        subst hm
        simp
      | cons c s =>
        have : (c :: s).take n ≠ [] := by
          cases n with
          | zero => exact absurd rfl hn
          | succ n => simp
        simp [this, hn]

theorem escape_maxlen_unreserved {S : Spec} {dbg : Bool} {d : Disp} {m : Option Nat} {t : Str}
    (h : escape_write_with_maxlen S dbg d false m = some t) :
    PC (iunreserved S) t ∧ (t = [] ↔ m = some 0 ∨ d.flatten = []) := by
  unfold escape_write_with_maxlen at h
  simp only [Bool.false_eq_true, if_false] at h
  cases m with
  | none =>
    simp only [Option.some.injEq] at h
    subst h
    rw [unreserve_flatten]
    exact ⟨pc_encU S _, by rw [encU_eq_nil]; simp⟩
  | some n =>
    have := pc_truncate h
    exact ⟨this.1, by rw [this.2]; simp⟩

theorem pc_escape_maxlen {S : Spec} {dbg : Bool} {d : Disp} {a : Bool} {m : Option Nat} {t : Str}
    (h : escape_write_with_maxlen S dbg d a m = some t) : PC (resourceChar S) t := by
  cases a with
  | false => exact iun_resource (escape_maxlen_unreserved h).1
  | true =>
    unfold escape_write_with_maxlen at h
    simp only [if_true] at h
    cases m with
    | none => exact process_keeps (unboundedFrag_keeps S) .nil h
    | some n =>
      simp only at h
      rw [Option.map_eq_some_iff] at h
      obtain ⟨st, h1, rfl⟩ := h
      exact process_keeps (P := fun st => PC (resourceChar S) st.1) (truncFrag_keeps S dbg)
        (st := ([], n)) .nil h1

/-! ## The visitors -/

theorem pc_name {S : Spec} {s : Str} (h : varnameX s) : PC (iunreserved S) s := by
  rw [varnameX_iff] at h
  refine h.1.mono fun c h2 => ?_
  simp only [contC, Bool.or_eq_true, beq_iff_eq, varcharPlain] at h2
  have : unreserved c = true := by
    simp only [unreserved, Bool.or_eq_true]
    simp at h2 ⊢
    rcases h2 with ((h2 | h2) | h2) | h2 <;> simp [h2]
  cases S <;> simp [iunreserved, this]

theorem pc_one {S : Spec} {c : Char} (h : gen_delims c = true ∨ sub_delims c = true) :
    PC (resourceChar S) [c] := by
  have : resourceChar S c = true := by
    rcases h with h | h <;> simp [resourceChar, h]
  exact .chr (resourceChar_ne this) this .nil

theorem pc_opProps (S : Spec) (op : Operator) :
    PC (resourceChar S) (opProps op).first ∧ PC (resourceChar S) (opProps op).sep ∧
      PC (resourceChar S) (opProps op).ifemp := by
  have hdot : PC (resourceChar S) ['.'] := by
    have : resourceChar S '.' = true := by cases S <;> decide
    exact .chr (resourceChar_ne this) this .nil
  have h1 : ∀ c : Char, (gen_delims c || sub_delims c) = true → PC (resourceChar S) [c] := by
    intro c h
    exact pc_one (by simpa using h)
  cases op <;>
    simp only [opProps] <;>
    refine ⟨?_, ?_, ?_⟩ <;>
    first
    | exact PC.nil
    | exact hdot
    | exact h1 _ (by decide)

theorem pc_leader (S : Spec) (op : Operator) (first : Bool) :
    PC (resourceChar S) (leader (opProps op) first) := by
  unfold leader
  cases first
  · exact (pc_opProps S op).2.1
  · exact (pc_opProps S op).1

theorem pc_eq (S : Spec) : PC (resourceChar S) ['='] := pc_one (by decide)
theorem pc_comma (S : Spec) : PC (resourceChar S) [','] := pc_one (by decide)

section values

variable {S : Spec} {dbg : Bool} {op : Operator} {spec : VarSpec} (hn : varnameX spec.name)

include hn

theorem pc_visit_string {first : Bool} {d : Disp} {t : Str}
    (h : visit_string S dbg op spec first d = some t) : PC (resourceChar S) t := by
  unfold visit_string at h
  simp only at h
  rw [Option.map_eq_some_iff] at h
  obtain ⟨u, h1, rfl⟩ := h
  have hu := pc_escape_maxlen h1
  refine (pc_leader S op first).append ?_
  split
  · refine (iun_resource (pc_name hn)).append ?_
    split
    · exact (pc_opProps S op).2.2
    · exact (pc_eq S).append hu
  · exact hu

theorem pc_visit_item {first : Bool} {n : Nat} {d : Disp} {t : Str}
    (h : visit_item S dbg op spec first n d = some t) : PC (resourceChar S) t := by
  unfold visit_item at h
  simp only at h
  rw [Option.bind_eq_some_iff] at h
  obtain ⟨x, _, h⟩ := h
  rw [Option.bind_eq_some_iff] at h
  obtain ⟨pre, h1, h⟩ := h
  rw [Option.map_eq_some_iff] at h
  obtain ⟨u, h2, rfl⟩ := h
  refine PC.append ?_ (pc_escape_write h2)
  split at h1
  · simp at h1; subst h1
    refine (pc_leader S op first).append ?_
    split
    · exact (iun_resource (pc_name hn)).append (pc_eq S)
    · exact .nil
  · split at h1
    · simp at h1; subst h1; exact pc_comma S
    · split at h1
      · simp at h1; subst h1; exact (pc_opProps S op).2.1
      · rw [Option.map_eq_some_iff] at h1
        obtain ⟨m, h3, rfl⟩ := h1
        exact ((pc_opProps S op).2.1.append (pc_escape_write h3)).append (pc_eq S)

theorem pc_visit_items {first : Bool} {n : Nat} {l : List Disp} {t : Str}
    (h : visit_items S dbg op spec first n l = some t) : PC (resourceChar S) t := by
  induction l generalizing n t with
  | nil => simp [visit_items] at h; subst h; exact .nil
  | cons d l ih =>
    rw [visit_items, Option.bind_eq_some_iff] at h
    obtain ⟨a, h1, h⟩ := h
    rw [Option.map_eq_some_iff] at h
    obtain ⟨b, h2, rfl⟩ := h
    exact (pc_visit_item hn h1).append (ih h2)

omit hn in
theorem pc_visit_entry {first : Bool} {n : Nat} {e : Disp × Disp} {t : Str}
    (h : visit_entry S dbg op spec first n e = some t) : PC (resourceChar S) t := by
  unfold visit_entry at h
  simp only at h
  rw [Option.bind_eq_some_iff] at h
  obtain ⟨x, _, h⟩ := h
  rw [Option.bind_eq_some_iff] at h
  obtain ⟨pre, h1, h⟩ := h
  rw [Option.map_eq_some_iff] at h
  obtain ⟨u, h2, rfl⟩ := h
  refine PC.append ?_ (pc_escape_write h2)
  split at h1
  · split at h1
    · rw [Option.map_eq_some_iff] at h1
      obtain ⟨m, h3, rfl⟩ := h1
      exact ((pc_leader S op first).append (pc_escape_write h3)).append (pc_eq S)
    · rw [Option.bind_eq_some_iff] at h1
      obtain ⟨m, h3, h1⟩ := h1
      rw [Option.map_eq_some_iff] at h1
      obtain ⟨k, h4, rfl⟩ := h1
      refine (((pc_leader S op first).append ?_).append (pc_escape_write h4)).append (pc_comma S)
      split at h3
      · rw [Option.map_eq_some_iff] at h3
        obtain ⟨m', h5, rfl⟩ := h3
        exact (pc_escape_write h5).append (pc_eq S)
      · simp at h3; subst h3; exact .nil
  · split at h1
    · rw [Option.map_eq_some_iff] at h1
      obtain ⟨m, h3, rfl⟩ := h1
      exact ((pc_comma S).append (pc_escape_write h3)).append (pc_comma S)
    · rw [Option.map_eq_some_iff] at h1
      obtain ⟨m, h3, rfl⟩ := h1
      exact ((pc_opProps S op).2.1.append (pc_escape_write h3)).append (pc_eq S)

omit hn in
theorem pc_visit_entries {first : Bool} {n : Nat} {l : List (Disp × Disp)} {t : Str}
    (h : visit_entries S dbg op spec first n l = some t) : PC (resourceChar S) t := by
  induction l generalizing n t with
  | nil => simp [visit_entries] at h; subst h; exact .nil
  | cons d l ih =>
    rw [visit_entries, Option.bind_eq_some_iff] at h
    obtain ⟨a, h1, h⟩ := h
    rw [Option.map_eq_some_iff] at h
    obtain ⟨b, h2, rfl⟩ := h
    exact (pc_visit_entry h1).append (ih h2)

theorem pc_visit_value {first : Bool} {val : Value} {o : Str × Bool}
    (h : visit_value S dbg op spec first val = some o) : PC (resourceChar S) o.1 := by
  cases val with
  | undefined => simp [visit_value] at h; subst h; exact .nil
  | string d =>
    rw [visit_value, Option.map_eq_some_iff] at h
    obtain ⟨t, h1, rfl⟩ := h
    exact pc_visit_string hn h1
  | list l =>
    rw [visit_value, Option.map_eq_some_iff] at h
    obtain ⟨t, h1, rfl⟩ := h
    exact pc_visit_items hn h1
  | assoc l =>
    rw [visit_value, Option.map_eq_some_iff] at h
    obtain ⟨t, h1, rfl⟩ := h
    exact pc_visit_entries h1

end values

theorem pc_varsP {S : Spec} {dbg : Bool} {ctx : Ctx} {op : Operator} {first : Bool} {vars : List Var}
    {t : Str} (hw : ∀ v ∈ vars, varnameX v.name) (h : varsP S dbg ctx op first vars = some t) :
    PC (resourceChar S) t := by
  induction vars generalizing first t with
  | nil => simp [varsP] at h; subst h; exact .nil
  | cons v vs ih =>
    rw [varsP, Option.bind_eq_some_iff] at h
    obtain ⟨o, h1, h⟩ := h
    rw [Option.map_eq_some_iff] at h
    obtain ⟨b, h2, rfl⟩ := h
    exact (pc_visit_value (spec := toSpec v) (hw v (by simp)) h1).append
      (ih (fun v hv => hw v (by simp [hv])) h2)

theorem pc_literal {S : Spec} {s : Str} (h : asciiLiterals s) : PC (resourceChar S) s := by
  rcases h with ⟨c, rfl, hc⟩ | h
  · have ha : c.toNat < 128 := by
      simp [literalChar] at hc; omega
    have : resourceChar S c = true := by
      refine ascii_forall (P := fun c => literalChar c = true → resourceChar S c = true) ?_ c ha hc
      cases S <;> decide +kernel
    exact .chr (resourceChar_ne this) this .nil
  · obtain ⟨x, y, rfl, h1, h2⟩ := (pct_encoded_iff _).1 h
    exact .pct h1 h2 .nil

theorem pc_display {S : Spec} {dbg : Bool} {ctx : Ctx} {t : List Piece} {out : Str} (ha : Accepted t)
    (h : t.foldr (dispG S dbg ctx) (some []) = some out) : PC (resourceChar S) out := by
  induction t generalizing out with
  | nil => simp at h; subst h; exact .nil
  | cons p t ih =>
    rw [List.foldr_cons] at h
    have ih := fun out => ih (out := out) (fun p hp => ha p (by simp [hp]))
    have hp := ha p (by simp)
    cases p with
    | lit s =>
      simp only [dispG] at h
      rw [Option.map_eq_some_iff] at h
      obtain ⟨b, h2, rfl⟩ := h
      exact (pc_literal hp).append (ih _ h2)
    | expr op vars =>
      simp only [dispG] at h
      rw [Option.bind_eq_some_iff] at h
      obtain ⟨a, h1, h⟩ := h
      rw [Option.map_eq_some_iff] at h
      obtain ⟨b, h2, rfl⟩ := h
      exact (pc_varsP (fun v hv => (hp.2.2 v hv).1) h1).append (ih _ h2)

end Verif.Tpl
