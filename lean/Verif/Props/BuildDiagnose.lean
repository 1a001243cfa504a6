import Verif.Model.BuildDiagnose
import Verif.Spec.BuildError
import Verif.Props.Build
import Verif.Lemmas.Diagnose
import Verif.Spec.Lit

/-! # C44: what a builder error says -/

namespace Verif

open Abnf BuildSpec
open Diagnose (ErrorKind)

namespace Diag

/-- A cascade of checks. -/
def run : List (ErrorKind × Bool) → Res
  | [] => .ok ()
  | (k, b) :: l => if b then run l else .error k

theorem run_append (l m : List (ErrorKind × Bool)) : run (l ++ m) = andThen (run l) (run m) := by
  induction l with
  | nil => rfl
  | cons x l ih =>
    obtain ⟨k, b⟩ := x
    cases b <;> simp [run, ih, andThen]

/-- The checks decide the requirements. -/
inductive Decides : List (ErrorKind × Bool) → List (ErrorKind × Prop) → Prop
  | nil : Decides [] []
  | cons {k b P l m} : (b = true ↔ P) → Decides l m → Decides ((k, b) :: l) ((k, P) :: m)

theorem Decides.append {l l' m m'} (h : Decides l m) (h' : Decides l' m') :
    Decides (l ++ l') (m ++ m') := by
  induction h with
  | nil => exact h'
  | cons e _ ih => exact .cons e ih

theorem run_error {l m} (h : Decides l m) (k : ErrorKind) : run l = .error k ↔ FirstFail m k := by
  induction h with
  | nil => constructor <;> intro h <;> cases h
  | @cons k0 b P l m e _ ih =>
    cases b with
    | true =>
      have hP : P := e.1 rfl
      simp only [run, if_true]
      rw [ih]
      constructor
      · exact .there hP
      · intro h
        cases h with
        | here h => exact absurd hP h
        | there _ h => exact h
    | false =>
      have hP : ¬ P := fun h => by cases e.2 h
      simp only [run, Bool.false_eq_true, if_false]
      constructor
      · intro h; cases h; exact .here hP
      · intro h
        cases h with
        | here => rfl
        | there h => exact absurd h hP

theorem run_ok {l m} (h : Decides l m) : run l = .ok () ↔ ∀ x ∈ m, x.2 := by
  induction h with
  | nil => simp [run]
  | @cons k0 b P l m e _ ih =>
    cases b with
    | true => simp [run, ih, e.1 rfl]
    | false =>
      have hP : ¬ P := fun h => by cases e.2 h
      simp [run, hP]

/-- The checks of the target type. -/
def kindL (b : Builder) : IriKind → List (ErrorKind × Bool)
  | .reference => []
  | .iri => [(.InvalidScheme, b.scheme.isSome)]
  | .absolute => [(.InvalidScheme, b.scheme.isSome), (.UnexpectedFragment, b.fragment.isNone)]
  | .relative => [(.UnexpectedAbsolute, b.scheme.isNone)]

theorem checkKind_run (b : Builder) (k : IriKind) : checkKind b k = run (kindL b k) := by
  cases k <;> cases h1 : b.scheme <;> cases h2 : b.fragment <;>
    simp [checkKind, kindL, run, h1, h2]

theorem kindL_decides (b : Builder) (k : IriKind) : Decides (kindL b k) (kindRequirements b k) := by
  cases k
  · exact .nil
  · exact .cons isSome_ne .nil
  · exact .cons isSome_ne (.cons (by simp) .nil)
  · exact .cons (by simp) .nil

/-- Checks before the path. -/
def preL (S : Spec) (b : Builder) : List (ErrorKind × Bool) :=
  [(.InvalidScheme, optOk Verif.validate_scheme b.scheme),
   (.InvalidUserInfo, optOk (fun a => a.userinfo.ok S) b.authority),
   (.InvalidHost, optOk (fun a => a.host.ok S) b.authority),
   (.InvalidPort, optOk (fun a => a.port.ok) b.authority)]

/-- Checks after the path. -/
def postL (S : Spec) (b : Builder) : List (ErrorKind × Bool) :=
  [(.InvalidQuery, optOk (Verif.validate_query S) b.query),
   (.InvalidFragment, optOk (Verif.validate_fragment S) b.fragment)]

theorem checkUserinfo_eq (S : Spec) (u : UserinfoRepr) :
    checkUserinfo S u = check (u.ok S) .InvalidUserInfo := by
  cases u with
  | absent => rfl
  | direct u => rfl
  | userPass u p =>
    simp only [checkUserinfo, UserinfoRepr.ok, validate_userinfo]
    cases p with
    | none =>
      cases u.contains ':' <;> cases Verif.validate_userinfo S u <;> simp [check, andThen, optCheck]
    | some p =>
      simp only [optCheck, validate_userinfo]
      generalize Verif.validate_userinfo S p = z
      cases u.contains ':' <;> cases Verif.validate_userinfo S u <;> cases z <;>
        simp [check, andThen]

theorem checkHost_eq (S : Spec) (h : HostRepr) : checkHost S h = check (h.ok S) .InvalidHost := by
  cases h <;> rfl

theorem checkPort_eq (p : PortRepr) : checkPort p = check p.ok .InvalidPort := by
  cases p with
  | string s => by_cases h : s.all isDigit = true <;> simp only [checkPort, PortRepr.ok, check, h] <;> simp
  | _ => rfl

theorem pre_run (S : Spec) (b : Builder) :
    andThen (optCheck validate_scheme b.scheme) (optCheck (checkAuthority S) b.authority) =
      run (preL S b) := by
  have h1 : optCheck validate_scheme b.scheme =
      run [(.InvalidScheme, optOk Verif.validate_scheme b.scheme)] := by
    cases b.scheme <;> rfl
  have h2 : optCheck (checkAuthority S) b.authority = run
      [(.InvalidUserInfo, optOk (fun a => a.userinfo.ok S) b.authority),
       (.InvalidHost, optOk (fun a => a.host.ok S) b.authority),
       (.InvalidPort, optOk (fun a => a.port.ok) b.authority)] := by
    cases b.authority with
    | none => rfl
    | some a =>
      simp only [optCheck, optOk, checkAuthority, checkUserinfo_eq, checkHost_eq, checkPort_eq, run]
      by_cases x : a.userinfo.ok S = true <;> by_cases y : a.host.ok S = true <;>
        by_cases z : a.port.ok = true <;> simp [check, andThen, x, y, z]
  rw [h1, h2, ← run_append]
  rfl

theorem post_run (S : Spec) (b : Builder) :
    andThen (optCheck (validate_query S) b.query) (optCheck (validate_fragment S) b.fragment) =
      run (postL S b) := by
  have h1 : optCheck (validate_query S) b.query =
      run [(.InvalidQuery, optOk (Verif.validate_query S) b.query)] := by
    cases b.query <;> rfl
  have h2 : optCheck (validate_fragment S) b.fragment =
      run [(.InvalidFragment, optOk (Verif.validate_fragment S) b.fragment)] := by
    cases b.fragment <;> rfl
  rw [h1, h2, ← run_append]
  rfl

/-- `Ok(())` replaced by a value. -/
def withValue {α : Type} (r : Res) (a : α) : Except ErrorKind α :=
  match r with
  | .ok _ => .ok a
  | .error k => .error k

theorem build_run {S : Spec} {b : Builder} {acc abs : Bool} (k : IriKind)
    (hp : b.pathCheck S = some (acc, abs)) :
    build S k b = some (withValue (run (kindL b k ++ (preL S b ++ ((.InvalidPath, acc) :: postL S b))))
      ⟨b, abs⟩) := by
  unfold build validateBuilder
  rw [checkKind_run, pre_run, post_run, hp, run_append, run_append]
  simp only [Option.map_some, run]
  cases run (kindL b k) <;> cases run (preL S b) <;> cases acc <;> cases run (postL S b) <;>
    simp [andThen, withValue]

end Diag

/-- **C44**: `build` fails with `e` exactly when `e` is the kind of the first requirement (of the
target type, then component by component) that the settings do not meet; it succeeds, with the
value that C28-C30 are about, exactly when all are met.  (With normalization on, the path must be
well formed: `build` does not check it, `C28_path_panics`.) -/
theorem C44_builder_error (S : Spec) (k : IriKind) (b : Builder)
    (hp : b.normalize = true → Rfc.path S b.path) :
    ∃ r, Diag.build S k b = some r ∧ (∀ e, r = .error e ↔ FirstFail (requirements S k b) e) ∧
      ((∃ B, r = .ok B) ↔ ∀ x ∈ requirements S k b, x.2) ∧
      ∀ B, r = .ok B ↔ b.build S k = some (some B) := by
  have hpc : ∃ acc abs, b.pathCheck S = some (acc, abs) ∧ (acc = true ↔ PathOk b) := by
    cases hn : b.normalize with
    | false => obtain ⟨a, c, h1, h2, _⟩ := pathCheck_raw (S := S) hn; exact ⟨a, c, h1, h2⟩
    | true =>
      obtain ⟨a, c, h1, h2, _⟩ := pathCheck_norm (S := S) hn (path_iff.1 (hp hn)).wf
      exact ⟨a, c, h1, h2⟩
  obtain ⟨acc, abs, h1, h2⟩ := hpc
  have hd : Diag.Decides (Diag.kindL b k ++ (Diag.preL S b ++ ((.InvalidPath, acc) :: Diag.postL S b)))
      (requirements S k b) := by
    refine (Diag.kindL_decides b k).append ?_
    refine .cons ?_ (.cons ?_ (.cons ?_ (.cons ?_ (.cons h2 (.cons ?_ (.cons ?_ .nil))))))
    · cases b.scheme <;> simp [optOk, scheme_iff]
    · cases b.authority with
      | none => simp [optOk]
      | some a => simp [optOk, userinfo_ok, and_comm]
    · cases b.authority with
      | none => simp [optOk]
      | some a => simp [optOk, hostText_ok]
    · cases b.authority with
      | none => simp [optOk]
      | some a => simp [optOk, port_ok]
    · cases b.query <;> simp [optOk, validate_query_iff]
    · cases b.fragment <;> simp [optOk, validate_fragment_iff]
  refine ⟨_, Diag.build_run k h1, ?_, ?_, ?_⟩
  · intro e
    rw [← Diag.run_error hd]
    cases Diag.run _ <;> simp [Diag.withValue]
  · rw [← Diag.run_ok hd]
    cases Diag.run _ <;> simp [Diag.withValue]
  · intro B
    obtain ⟨h4, h5⟩ := validate_iff (k := k) h1 h2
    have key : Acceptable S k b ↔ ∀ x ∈ requirements S k b, x.2 := by
      constructor
      · intro h x hx
        simp only [requirements, componentRequirements, List.mem_append, List.mem_cons,
          List.not_mem_nil, or_false] at hx
        rcases hx with hx | rfl | rfl | rfl | rfl | rfl | rfl | rfl
        · have := h.kind
          cases k <;> simp [kindRequirements, KindOk] at hx this
          · rw [hx]; exact this
          · rcases hx with rfl | rfl
            · exact this.1
            · exact this.2
          · rw [hx]; exact this
        · exact h.scheme
        · exact fun a ha => ⟨(h.authority a ha).2, (h.authority a ha).1.userinfo⟩
        · exact fun a ha => (h.authority a ha).1.host
        · exact fun a ha => (h.authority a ha).1.port
        · exact ⟨h.withAuthority, h.withoutAuthority, h.withoutScheme⟩
        · exact h.query
        · exact h.fragment
      · intro h
        have hk : KindOk b k := by
          cases k <;> simp [requirements, kindRequirements, KindOk] at h ⊢
          · exact h.1
          · exact ⟨h.1, h.2.1⟩
          · exact h.1
        have hc : ∀ x ∈ componentRequirements S b, x.2 := fun x hx =>
          h x (by simp [requirements, hx])
        simp only [componentRequirements, List.forall_mem_cons] at hc
        obtain ⟨c1, c2, c3, c4, ⟨c5, c6, c7⟩, c8, c9, _⟩ := hc
        exact ⟨hk, c1, fun a ha => ⟨⟨(c2 a ha).2, c3 a ha, c4 a ha⟩, (c2 a ha).1⟩, c5, c6, c7, c8, c9⟩
    rw [← Diag.run_ok hd] at key
    by_cases ha : Acceptable S k b
    · rw [key.1 ha, (h4 ha).1]; simp [Diag.withValue]
    · rw [h5 ha]
      have := mt key.2 ha
      cases hr : Diag.run (Diag.kindL b k ++ (Diag.preL S b ++ ((.InvalidPath, acc) :: Diag.postL S b))) with
      | ok => exact absurd hr this
      | error => simp [Diag.withValue]

/-! ### Concrete cases -/

instance : DecidableEq (Except ErrorKind Built)
  | .ok a, .ok b => if h : a = b then .isTrue (by rw [h]) else .isFalse (by simpa using h)
  | .ok _, .error _ => .isFalse (by simp)
  | .error _, .ok _ => .isFalse (by simp)
  | .error a, .error b =>
    if h : a = b then .isTrue (by rw [h]) else .isFalse (by simpa using h)

example : Diag.build .iri .absolute { scheme := some (chars! "1"), fragment := some [] } =
    some (.error .UnexpectedFragment) := by decide +kernel
example : Diag.build .iri .iri { path := chars! "a" } = some (.error .InvalidScheme) := by decide +kernel
example : Diag.build .iri .relative { scheme := some (chars! "a") } =
    some (.error .UnexpectedAbsolute) := by decide +kernel
example : Diag.build .iri .reference
    { authority := some ⟨.string (chars! "["), .string (chars! "x"), .userPass (chars! "a:b") none⟩ } =
      some (.error .InvalidUserInfo) := by decide +kernel
example : Diag.build .iri .reference
    { authority := some ⟨.string (chars! "h"), .string (chars! "x"), .absent⟩, path := chars! "p" } =
      some (.error .InvalidPort) := by decide +kernel
example : Diag.build .iri .reference
    { authority := some ⟨.string (chars! "h"), .empty, .absent⟩, path := chars! "p", query := some (chars! "<") } =
      some (.error .InvalidPath) := by decide +kernel

end Verif
