import Verif.Model.BuildWork
import Verif.Props.EditWork
import Verif.Props.NormalizeWork
import Verif.Props.Build
import Verif.Props.Size

/-!
# C95: building is linear work, and with normalization bytes times slashes
-/

namespace Verif

open Rfc PathToNormalize

namespace Work

theorem pct_fst (S : Spec) (s : Str) : (pct_case_normalized S s).1 = Verif.pct_case_normalized S s :=
  pct_case_go_fst S _ s

@[simp] theorem pctIf_fst (S : Spec) (n : Bool) (s : Str) : (pctIf S n s).1 = Verif.pctIf S n s := by
  unfold pctIf Verif.pctIf
  cases n
  · rfl
  · exact pct_fst S s

@[simp] theorem userinfoWrite_fst (S : Spec) (n : Bool) (u : UserinfoRepr) : (userinfoWrite S n u).1 = u.write S n := by
  unfold userinfoWrite UserinfoRepr.write
  rcases u with _ | u | ⟨u, _ | p⟩
  · rfl
  · simp
  · simp
  · simp [obind_fst]

@[simp] theorem hostWrite_fst (S : Spec) (n : Bool) (h : HostRepr) : (hostWrite S n h).1 = h.write S n := by
  rcases h with h | _ | _
  · unfold hostWrite HostRepr.write
    cases n
    · rfl
    · exact normalize_host_port_fst S h
  · rfl
  · rfl

@[simp] theorem authorityWrite_fst (S : Spec) (n : Bool) (a : AuthorityBuilder) :
    (authorityWrite S n a).1 = a.write S n := by
  unfold authorityWrite AuthorityBuilder.write
  simp [obind_fst]

@[simp] theorem builderWritePath_fst (S : Spec) (b : Builder) (x : Bool) :
    (builderWritePath S b x).1 = b.writePath S x := by
  unfold builderWritePath Builder.writePath
  split
  · rfl
  · split
    · simp
    · exact pct_fst S _

@[simp] theorem builderWrite_fst (S : Spec) (b : Builder) (x : Bool) : (builderWrite S b x).1 = b.write S x := by
  have hq : ∀ s, (pctIf S b.normalize s).1 = if b.normalize = true then normalize_query S s else some s := by
    intro s; rw [pctIf_fst]; rfl
  have hf : ∀ s, (pctIf S b.normalize s).1 = if b.normalize = true then normalize_fragment S s else some s := by
    intro s; rw [pctIf_fst]; rfl
  unfold builderWrite Builder.write
  simp only [bind_fst, obind_fst, builderWritePath_fst, Option.bind_eq_bind]
  have ha : (authorityOptWrite S b.normalize b.authority).1 = match b.authority with
    | none => some []
    | some a => (a.write S b.normalize).map fun t => '/' :: '/' :: t := by
    unfold authorityOptWrite
    rcases b.authority with _ | a
    · rfl
    · simp
  have hs : (schemeWrite b.normalize b.scheme).1 = match b.scheme with
    | none => []
    | some s => (if b.normalize then Verif.normalize_scheme s else s) ++ [':'] := by
    unfold schemeWrite
    rcases b.scheme with _ | s
    · rfl
    · cases b.normalize <;> rfl
  rw [ha, hs]
  rcases b.authority with _ | a
  · simp only [Option.bind_some]
    rcases b.writePath S x with _ | p
    · rfl
    · simp only [Option.bind_some]
      rw [writeOpt_fst _ _ _ hq]
      rcases Verif.writeOpt ['?'] _ b.query with _ | q
      · rfl
      · simp only [Option.bind_some]
        rw [writeOpt_fst _ _ _ hf]
        simp only [ret_fst]
        rcases Verif.writeOpt ['#'] _ b.fragment with _ | f <;> rfl
  · simp only
    rcases (a.write S b.normalize) with _ | t
    · rfl
    · simp only [Option.map_some, Option.bind_some]
      rcases b.writePath S x with _ | p
      · rfl
      · simp only [Option.bind_some]
        rw [writeOpt_fst _ _ _ hq]
        rcases Verif.writeOpt ['?'] _ b.query with _ | q
        · rfl
        · simp only [Option.bind_some]
          rw [writeOpt_fst _ _ _ hf]
          simp only [ret_fst]
          rcases Verif.writeOpt ['#'] _ b.fragment with _ | f <;> rfl

@[simp] theorem prior_byte2_fst (a b : Char) (s : Str) : (prior_byte2 a b s).1 = Verif.prior_byte2 s a b := by
  unfold Verif.prior_byte2
  induction s with
  | nil => rfl
  | cons c r ih =>
    unfold prior_byte2
    by_cases h : (c == a || c == b) = true
    · rw [if_pos h, List.find?_cons_of_pos (by exact h)]
    · rw [if_neg h, List.find?_cons_of_neg (by exact h)]
      exact ih

theorem all_ne (s : Str) (d : Char) : (s.all fun c => c != d) = !s.contains d := by
  induction s with
  | nil => rfl
  | cons c r ih =>
    rw [List.all_cons, ih, List.contains_cons, Bool.not_or]
    congr 1
    rw [Bool.eq_iff_iff]
    simp only [bne_iff_ne, ne_eq, Bool.not_eq_true', beq_eq_false_iff_ne]
    exact ⟨fun h e => h e.symm, fun h e => h e.symm⟩

@[simp] theorem userinfoOk_fst (S : Spec) (u : UserinfoRepr) : (userinfoOk S u).1 = u.ok S := by
  unfold userinfoOk UserinfoRepr.ok
  rcases u with _ | u | ⟨u, _ | p⟩
  · rfl
  · simp
  · simp [all_ne]
  · simp [all_ne]

@[simp] theorem hostOk_fst (S : Spec) (h : HostRepr) : (hostOk S h).1 = h.ok S := by
  rcases h with h | _ | _
  · simp [hostOk, HostRepr.ok]
  · rfl
  · rfl

@[simp] theorem portOk_fst (p : PortRepr) : (portOk p).1 = p.ok := by
  rcases p with _ | _ | s
  · rfl
  · rfl
  · simp [portOk, PortRepr.ok]

@[simp] theorem authorityOk_fst (S : Spec) (a : AuthorityBuilder) : (authorityOk S a).1 = a.ok S := by
  simp [authorityOk, AuthorityBuilder.ok]

theorem optOk_fst {α : Type} (f : α → T Bool) (g : α → Bool) (h : ∀ x, (f x).1 = g x) (o : Option α) :
    (optOk f o).1 = Verif.optOk g o := by
  rcases o with _ | x
  · rfl
  · exact h x

@[simp] theorem from_path_to_display_fst (S : Spec) (p : PathToNormalize) (auth : Bool) :
    (from_path_to_display S p auth).1 = PathCharacteristic.from_path_to_display S p auth := by
  unfold from_path_to_display PathCharacteristic.from_path_to_display
  rw [obind_fst, fmt_write_normalize_fst]

@[simp] theorem pathCheck_fst (S : Spec) (b : Builder) : (pathCheck S b).1 = b.pathCheck S := by
  unfold pathCheck Builder.pathCheck
  simp only [bind_fst, starts_with_fst]
  cases b.normalize
  · simp only [Bool.false_eq_true, if_false]
    cases b.authority.isSome
    · simp only [Bool.false_eq_true, if_false]
      by_cases h : (b.scheme.isSome || Verif.starts_with b.path ['/']) = true
      · rw [if_pos h, if_pos h]
        simp
      · rw [if_neg h, if_neg h]
        simp
    · rfl
  · simp only [if_true]
    by_cases h : (b.scheme.isSome || b.authority.isSome || Verif.starts_with b.path ['/']) = true
    · rw [if_pos h, if_pos h]
      simp only [bind_fst, ret_fst, from_path_to_display_fst]
      rfl
    · rw [if_neg h, if_neg h]
      simp

@[simp] theorem builderValidate_fst (S : Spec) (b : Builder) : (builderValidate S b).1 = b.validate S := by
  unfold builderValidate Builder.validate
  simp only [bind_fst, and_fst, optOk_fst _ Verif.validate_scheme validate_scheme_fst,
    optOk_fst _ (AuthorityBuilder.ok S) (authorityOk_fst S)]
  cases Verif.optOk Verif.validate_scheme b.scheme
  · rfl
  · cases Verif.optOk (AuthorityBuilder.ok S) b.authority
    · rfl
    · simp only [Bool.and_self, Bool.not_true, Bool.false_eq_true, if_false, obind_fst, pathCheck_fst]
      rcases b.pathCheck S with _ | ⟨x, y⟩
      · rfl
      · simp only [Option.bind_some, Option.map_some]
        cases x
        · rfl
        · simp only [Bool.not_true, Bool.false_eq_true, if_false, bind_fst, and_fst, ret_fst]
          simp only [optOk_fst _ (Verif.validate_query S) (validate_query_fst S),
            optOk_fst _ (Verif.validate_fragment S) (validate_fragment_fst S)]
          cases Verif.optOk (Verif.validate_query S) b.query
          · rfl
          · cases Verif.optOk (Verif.validate_fragment S) b.fragment <;> rfl

end Work

/-- **C95 (the counter changes nothing).** -/
theorem C95_same (S : Spec) (k : IriKind) (b : Builder) (B : Built) :
    (Work.build S k b).1 = b.build S k ∧ (Work.builtDisplay S B).1 = B.display S := by
  refine ⟨?_, ?_⟩
  · unfold Work.build Builder.build
    split
    · rfl
    · simp
  · unfold Work.builtDisplay Built.display
    simp

/-! ### How long the normalized path is -/

theorem fmt_default_blen {S : Spec} {auth : Bool} {s t : Str} (h : WF s)
    (ht : PathToNormalize.fmt_write_normalize S .default auth (PathToNormalize.from_single_path s) = some t) :
    blen t ≤ blen s + 2 := by
  have hi := from_single_path_inv s
  have hT : TextOK .default (PathToNormalize.from_single_path s).text := by rw [hi.2]; exact fun _ => h
  obtain ⟨hok, hx⟩ := pathSegs_spec (PathToNormalize.from_single_path s).text
  have hokS := stripRel_ok hok
  unfold PathToNormalize.fmt_write_normalize at ht
  split at ht
  · cases ht; exact Nat.zero_le _
  · rw [if_neg (by simp)] at ht
    obtain ⟨p', h1, h2, h3⟩ := remove_ignorable_prefix_eq hi.1 hx.symm hok
    simp only [h1, Option.bind_eq_bind, Option.bind_some] at ht
    split at ht
    · cases ht
      cases auth <;> simp [blen_cons] <;> exact Nat.le_trans (by decide) (Nat.le_add_left 2 _)
    · have hn' : TextOK .default p'.text := by
        rw [h3]
        rw [← hx] at hT
        exact textOK_of_names (stripRel_names (P := fun s => TextOK .default s) (names_ok hok hT))
      obtain ⟨out, r, h4, h5⟩ := main_part (S := S) (op := .default) (auth := auth) h2 h3 hokS hn'
      rw [h4] at ht
      have hnames : ∀ g ∈ fin (stripRel (pathSegs (PathToNormalize.from_single_path s).text)), TextOK .default g.2 := by
        intro g hg
        rcases fin_mem g hg with rfl | ⟨k1, _⟩
        · exact fun _ => .nil
        · rw [← hx] at hT
          exact stripRel_names (P := fun s => TextOK .default s) (names_ok hok hT) g k1
      rw [emitted_escape (fin_ok hokS) hnames] at h5
      have e := ht.symm.trans h5
      cases e
      have hw := wr_fin (S := S) (op := .default) hok (by rw [hx]; exact hT)
      have hrd := rds_undot hok
      rw [hx, hi.2] at hrd
      have hl := rds_blen true s (by intro h; cases h)
      rw [hrd] at hl
      have e2 : ∀ y, escapePath true y = y := fun y => rfl
      rw [e2] at hl
      rw [hi.2] at hw
      have hl2 := wr_blen (S := S) (op := .default) (hw.2 (by rfl))
      have e3 : ∀ y, blen (escapePath auth y) ≤ blen y + 2 := by
        intro y
        unfold escapePath
        split
        · simp only [blen_cons]
          have : '/'.utf8Size = 1 := by decide
          have : '.'.utf8Size = 1 := by decide
          omega
        · omega
      rw [hi.2, hw.1]
      have := e3 (wr S .default (pathText (fin (stripRel (pathSegs s)))))
      omega

/-! ### Bounds -/

/-- The bytes of the user information given to a builder. -/
def UserinfoRepr.size : UserinfoRepr → Nat
  | .absent => 0
  | .direct u => blen u
  | .userPass u none => blen u
  | .userPass u (some p) => blen u + blen p

/-- The bytes of the host given to a builder as a text. -/
def HostRepr.size : HostRepr → Nat
  | .string s => blen s
  | _ => 0

/-- The bytes of the port given to a builder as a text. -/
def PortRepr.size : PortRepr → Nat
  | .string s => blen s
  | _ => 0

/-- The bytes of the texts given to a builder for the authority. -/
def AuthorityBuilder.size (a : AuthorityBuilder) : Nat := a.userinfo.size + a.host.size + a.port.size

/-- The bytes of all texts given to a builder. -/
def Builder.size (b : Builder) : Nat :=
  b.scheme.elim 0 blen + b.authority.elim 0 AuthorityBuilder.size + blen b.path + b.query.elim 0 blen +
    b.fragment.elim 0 blen

namespace Work

theorem userinfoOk_snd (S : Spec) (u : UserinfoRepr) : (userinfoOk S u).2 ≤ 2 * u.size := by
  have hv : ∀ i, (validate_userinfo S i).2 ≤ blen i := fun i => satisfy_snd _ _ i
  rcases u with _ | u | ⟨u, _ | p⟩
  · exact Nat.zero_le _
  · have := hv u
    simp only [userinfoOk, UserinfoRepr.size]
    omega
  · have h1 := hv u
    have h2 := all_snd (fun c => c != ':') u
    have h3 := and_le (all (fun c => c != ':') u) (validate_userinfo S u)
    simp only [userinfoOk, UserinfoRepr.size]
    omega
  · have h1 := hv u
    have h2 := all_snd (fun c => c != ':') u
    have h3 := and_le (all (fun c => c != ':') u) (validate_userinfo S u)
    have h4 := hv p
    have h5 := and_le (and (all (fun c => c != ':') u) (validate_userinfo S u)) (validate_userinfo S p)
    simp only [userinfoOk, UserinfoRepr.size]
    omega

theorem authorityOk_snd (S : Spec) (a : AuthorityBuilder) : (authorityOk S a).2 ≤ 3 * a.size := by
  have h1 := userinfoOk_snd S a.userinfo
  have h2 : (hostOk S a.host).2 ≤ 3 * a.host.size := by
    rcases a.host with h | _ | _
    · exact validate_host_snd S h
    · exact Nat.zero_le _
    · exact Nat.zero_le _
  have h3 : (portOk a.port).2 ≤ a.port.size := by
    rcases a.port with _ | _ | s
    · exact Nat.zero_le _
    · exact Nat.zero_le _
    · exact all_snd _ s
  have h4 := and_le (userinfoOk S a.userinfo) (hostOk S a.host)
  have h5 := and_le (and (userinfoOk S a.userinfo) (hostOk S a.host)) (portOk a.port)
  unfold authorityOk AuthorityBuilder.size
  omega

theorem optOk_snd {α : Type} (f : α → T Bool) (g : α → Nat) (n : Nat) (h : ∀ x, (f x).2 ≤ n * g x) (o : Option α) :
    (optOk f o).2 ≤ n * o.elim 0 g := by
  rcases o with _ | x
  · exact Nat.zero_le _
  · exact h x

theorem prior_byte2_snd (a b : Char) (s : Str) : (prior_byte2 a b s).2 ≤ blen s := by
  induction s with
  | nil => exact Nat.zero_le _
  | cons c r ih =>
    unfold prior_byte2
    simp only [blen_cons]
    split <;> simp only <;> omega

/-- Everything but the path. -/
theorem builderValidate_snd (S : Spec) (b : Builder) :
    (builderValidate S b).2 + 3 * blen b.path ≤ 3 * b.size + (pathCheck S b).2 := by
  have h1 := optOk_snd validate_scheme blen 1 (by intro x; have := validate_scheme_snd x; omega) b.scheme
  have h2 := optOk_snd (authorityOk S) AuthorityBuilder.size 3 (authorityOk_snd S) b.authority
  have h3 := optOk_snd (validate_query S) blen 1
    (by intro x; have : (validate_query S x).2 ≤ blen x := satisfy_snd _ _ x; omega) b.query
  have h4 := optOk_snd (validate_fragment S) blen 1
    (by intro x; have : (validate_fragment S x).2 ≤ blen x := satisfy_snd _ _ x; omega) b.fragment
  have h5 := and_le (optOk validate_scheme b.scheme) (optOk (authorityOk S) b.authority)
  have h6 := and_le (optOk (validate_query S) b.query) (optOk (validate_fragment S) b.fragment)
  unfold builderValidate Builder.size
  rw [bind_snd]
  by_cases hc : (!(and (optOk validate_scheme b.scheme) (optOk (authorityOk S) b.authority)).1) = true
  · rw [if_pos hc, ret_snd]
    omega
  · rw [if_neg hc]
    rcases hx : (pathCheck S b).1 with _ | x
    · rw [obind_none hx]
      omega
    · rw [obind_some hx]
      by_cases hd : (!x.1) = true
      · rw [if_pos hd, ret_snd]
        omega
      · rw [if_neg hd, bind_snd, ret_snd]
        omega

theorem pathCheck_raw (S : Spec) (b : Builder) (hn : b.normalize = false) : (pathCheck S b).2 ≤ blen b.path + 3 := by
  have h1 : (starts_with b.path ['/']).2 ≤ 1 := by
    unfold starts_with
    have : blen ['/'] = 1 := by decide
    simp only [this]
    omega
  have h2 : (starts_with b.path ['/', '/']).2 ≤ 2 := by
    unfold starts_with
    rw [blen_dslash2]
    simp only
    omega
  have h3 := prior_byte2_snd '/' ':' b.path
  unfold pathCheck
  rw [bind_snd, hn, if_neg (by simp)]
  by_cases ha : b.authority.isSome = true
  · rw [if_pos ha, ret_snd]; omega
  · rw [if_neg ha]
    by_cases hs : (b.scheme.isSome || (starts_with b.path ['/']).1) = true
    · rw [if_pos hs, bind_snd, ret_snd]; omega
    · rw [if_neg hs, bind_snd, ret_snd]; omega

/-- Normalizing a path that is not taken apart first. -/
theorem fmt_single_snd (S : Spec) (auth : Bool) (s : Str) (h : WF s) :
    8 * (fmt_write_normalize S .default auth (from_single_path s)).2 ≤
      40 * (blen s * s.count '/') + 744 * blen s + 138 * s.count '/' + 284 := by
  have hi := from_single_path_inv s
  obtain ⟨k1, k2⟩ := pathSegs_spec s
  have hb := fmt_write_normalize_snd (S := S) (op := .default) (auth := auth) hi.1 (L := pathSegs s)
    (by rw [hi.2, k2]) k1 (by rw [hi.2]; exact fun _ => h)
  have hl := pathSegs_length s
  have hlen : (from_single_path s).len = blen s := by rw [len_text, hi.2]
  rw [hlen] at hb
  generalize blen s = n at *
  generalize s.count '/' = m at *
  have : (40 * n + 2) * ((pathSegs s).length + 17) ≤ (40 * n + 2) * (m + 18) :=
    Nat.mul_le_mul (by omega) (by omega)
  have e : (40 * n + 2) * (m + 18) = 40 * (n * m) + 720 * n + 2 * m + 36 := by
    simp only [Nat.add_mul, Nat.mul_add, Nat.mul_assoc]; omega
  omega

theorem pathCheck_norm_snd (S : Spec) (b : Builder) (hn : b.normalize = true) (hw : WF b.path) :
    8 * (pathCheck S b).2 ≤ 40 * (blen b.path * b.path.count '/') + 760 * blen b.path + 138 * b.path.count '/' + 332 := by
  have h1 : (starts_with b.path ['/']).2 ≤ 1 := by
    unfold starts_with
    have : blen ['/'] = 1 := by decide
    simp only [this]
    omega
  have h3 := prior_byte2_snd '/' ':' b.path
  have h4 := fmt_single_snd S b.authority.isSome b.path hw
  have h5 : 8 * (from_path_to_display S (from_single_path b.path) b.authority.isSome).2 ≤
      40 * (blen b.path * b.path.count '/') + 760 * blen b.path + 138 * b.path.count '/' + 324 := by
    unfold from_path_to_display
    rcases ht : PathToNormalize.fmt_write_normalize S .default b.authority.isSome (from_single_path b.path) with _ | t
    · rw [obind_none (by simpa using ht)]
      omega
    · rw [obind_some (a := t) (by simpa using ht)]
      have := fmt_default_blen hw ht
      simp only
      omega
  unfold pathCheck
  rw [bind_snd, hn, if_pos rfl]
  by_cases hs : (b.scheme.isSome || b.authority.isSome || (starts_with b.path ['/']).1) = true
  · rw [if_pos hs, bind_snd, ret_snd]; omega
  · rw [if_neg hs, bind_snd, ret_snd]; omega

theorem pctIf_snd (S : Spec) (n : Bool) (s : Str) : (pctIf S n s).2 ≤ (if n then 2 * blen s else 0) := by
  unfold pctIf
  cases n
  · exact Nat.zero_le _
  · exact pct_case_go_snd S _ _

theorem builderWrite_snd (S : Spec) (b : Builder) (x : Bool) :
    (builderWrite S b x).2 + (if b.normalize then 3 * blen b.path else 0) ≤
      (if b.normalize then 3 * b.size + 1 else 0) + (builderWritePath S b x).2 := by
  have hs : (schemeWrite b.normalize b.scheme).2 ≤ if b.normalize then b.scheme.elim 0 blen else 0 := by
    unfold schemeWrite
    rcases b.scheme with _ | s
    · exact Nat.zero_le _
    · cases b.normalize
      · exact Nat.zero_le _
      · simp [normalize_scheme]
  have ha : (authorityOptWrite S b.normalize b.authority).2 ≤
      if b.normalize then 3 * b.authority.elim 0 AuthorityBuilder.size + 1 else 0 := by
    unfold authorityOptWrite
    rcases b.authority with _ | a
    · exact Nat.zero_le _
    · have hu : (userinfoWrite S b.normalize a.userinfo).2 ≤ if b.normalize then 2 * a.userinfo.size else 0 := by
        unfold userinfoWrite UserinfoRepr.size
        rcases a.userinfo with _ | u | ⟨u, _ | p⟩
        · exact Nat.zero_le _
        · simp only [bind_snd, ret_snd]
          exact pctIf_snd S _ u
        · simp only [bind_snd, ret_snd]
          exact pctIf_snd S _ u
        · have h1 := pctIf_snd S b.normalize u
          have h2 := pctIf_snd S b.normalize p
          simp only
          rcases ho : (pctIf S b.normalize u).1 with _ | t
          · rw [obind_none ho]
            cases hb : b.normalize <;> simp only [hb, Bool.false_eq_true, if_true, if_false] at h1 ⊢ <;> omega
          · rw [obind_some ho, bind_snd, ret_snd]
            cases hb : b.normalize <;> simp only [hb, Bool.false_eq_true, if_true, if_false] at h1 h2 ⊢ <;> omega
      have hh : (hostWrite S b.normalize a.host).2 ≤ if b.normalize then 3 * a.host.size + 1 else 0 := by
        unfold hostWrite HostRepr.size
        rcases a.host with h | _ | _
        · cases b.normalize
          · exact Nat.zero_le _
          · exact normalize_host_port_snd S h
        · exact Nat.zero_le _
        · exact Nat.zero_le _
      simp only [bind_snd, ret_snd, Nat.add_zero, Option.elim_some]
      unfold authorityWrite AuthorityBuilder.size
      rcases ho : (userinfoWrite S b.normalize a.userinfo).1 with _ | t
      · rw [obind_none ho]
        cases hb : b.normalize <;> simp only [hb, Bool.false_eq_true, if_true, if_false] at hu ⊢ <;> omega
      · rw [obind_some ho, bind_snd, ret_snd]
        cases hb : b.normalize <;> simp only [hb, Bool.false_eq_true, if_true, if_false] at hu hh ⊢ <;> omega
  have hq : ∀ pre o, (writeOpt pre (pctIf S b.normalize) o).2 ≤ if b.normalize then 2 * o.elim 0 blen else 0 := by
    intro pre o
    rcases o with _ | y
    · exact Nat.zero_le _
    · simp only [writeOpt, bind_snd, ret_snd, Nat.add_zero, Option.elim_some]
      exact pctIf_snd S _ y
  have h3 := hq ['?'] b.query
  have h4 := hq ['#'] b.fragment
  unfold builderWrite Builder.size
  rw [bind_snd]
  rcases ho : (authorityOptWrite S b.normalize b.authority).1 with _ | a
  · rw [obind_none ho]
    cases hb : b.normalize <;> simp only [hb, Bool.false_eq_true, if_true, if_false] at hs ha ⊢ <;> omega
  · rw [obind_some ho]
    rcases hp : (builderWritePath S b x).1 with _ | p
    · rw [obind_none hp]
      cases hb : b.normalize <;> simp only [hb, Bool.false_eq_true, if_true, if_false] at hs ha ⊢ <;> omega
    · rw [obind_some hp]
      rcases hy : (writeOpt ['?'] (pctIf S b.normalize) b.query).1 with _ | q
      · rw [obind_none hy]
        cases hb : b.normalize <;> simp only [hb, Bool.false_eq_true, if_true, if_false] at hs ha h3 ⊢ <;> omega
      · rw [obind_some hy, bind_snd, ret_snd]
        cases hb : b.normalize <;> simp only [hb, Bool.false_eq_true, if_true, if_false] at hs ha h3 h4 ⊢ <;> omega

end Work

/-- **C95 (without normalization, linear).**  Whatever a builder is given, valid or not, of `n` bytes in all: building looks
at no more than `3 n + 3` bytes, and displaying the result writes its bytes and looks at nothing. -/
theorem C95_raw (S : Spec) (k : IriKind) (b : Builder) (hn : b.normalize = false) :
    (Work.build S k b).2 ≤ 3 * b.size + 3 ∧
    ∀ x t, Built.display S ⟨b, x⟩ = some t → (Work.builtDisplay S ⟨b, x⟩).2 = blen t := by
  refine ⟨?_, ?_⟩
  · have h1 := Work.builderValidate_snd S b
    have h2 := Work.pathCheck_raw S b hn
    unfold Work.build
    split
    · exact Nat.zero_le _
    · rw [Work.bind_snd, Work.ret_snd]
      omega
  · intro x t ht
    have h1 := Work.builderWrite_snd S b x
    have h2 : (Work.builderWritePath S b x).2 = 0 := by
      unfold Work.builderWritePath
      rw [hn]
      rfl
    rw [hn, h2] at h1
    simp only [Bool.false_eq_true, if_false] at h1
    have h3 : (Work.builderWrite S b x).1 = some t := by rw [Work.builderWrite_fst]; exact ht
    unfold Work.builtDisplay
    rw [Work.bind_snd]
    simp only [h3, Option.elim_some]
    omega

/-- **C95 (with normalization).**  If the path is grammatical, building with normalization looks at no more than
`(5 n + 18) (m + 22)` bytes, where `m` is the number of slashes in the path, and displaying the result at no more than
that and the bytes it writes: the bound of C91. -/
theorem C95_normalized (S : Spec) (k : IriKind) (b : Builder) (hn : b.normalize = true) (hp : Rfc.path S b.path) :
    (Work.build S k b).2 ≤ (5 * b.size + 18) * (b.path.count '/' + 22) ∧
    ∀ x t, Built.display S ⟨b, x⟩ = some t →
      (Work.builtDisplay S ⟨b, x⟩).2 ≤ (5 * b.size + 18) * (b.path.count '/' + 22) + blen t := by
  have hw := (path_iff.1 hp).wf
  have hsz : blen b.path ≤ b.size := by unfold Builder.size; omega
  have e : (5 * b.size + 18) * (b.path.count '/' + 22) =
      5 * (b.size * b.path.count '/') + 110 * b.size + 18 * b.path.count '/' + 396 := by
    simp only [Nat.add_mul, Nat.mul_add, Nat.mul_assoc]; omega
  have hm : blen b.path * b.path.count '/' ≤ b.size * b.path.count '/' := Nat.mul_le_mul_right _ hsz
  rw [e]
  refine ⟨?_, ?_⟩
  · have h1 := Work.builderValidate_snd S b
    have h2 := Work.pathCheck_norm_snd S b hn hw
    generalize b.size * b.path.count '/' = y at *
    generalize blen b.path * b.path.count '/' = z at *
    unfold Work.build
    split
    · exact Nat.zero_le _
    · rw [Work.bind_snd, Work.ret_snd]
      omega
  · intro x t ht
    have h1 := Work.builderWrite_snd S b x
    have h2 : 8 * (Work.builderWritePath S b x).2 ≤
        40 * (blen b.path * b.path.count '/') + 744 * blen b.path + 138 * b.path.count '/' + 284 := by
      unfold Work.builderWritePath
      rw [hn, if_neg (by simp)]
      split
      · exact Work.fmt_single_snd S _ _ hw
      · have : (Work.pct_case_normalized S b.path).2 ≤ 2 * blen b.path := Work.pct_case_go_snd S _ _
        omega
    rw [hn] at h1
    simp only [if_true] at h1
    have h3 : (Work.builderWrite S b x).1 = some t := by rw [Work.builderWrite_fst]; exact ht
    generalize b.size * b.path.count '/' = y at *
    generalize blen b.path * b.path.count '/' = z at *
    unfold Work.builtDisplay
    rw [Work.bind_snd]
    simp only [h3, Option.elim_some]
    omega

/-- A builder with most components, 34 bytes of text. -/
def workBuilder : Builder where
  scheme := some (chars! "http")
  authority := some {
    host := .string (chars! "example.com")
    port := .integer 80
    userinfo := .userPass (chars! "u") (some (chars! "p")) }
  path := chars! "/a/./b/../c%7e"
  query := some (chars! "q=1")

/-- Building it looks at 24 bytes, displaying it writes 43; with normalization, 94, and 125 for the 34 bytes written. -/
example : workBuilder.size = 34 ∧ (Work.build .uri .iri workBuilder).2 = 24 ∧
    (Work.builtDisplay .uri ⟨workBuilder, true⟩).2 = 43 ∧
    (Work.build .uri .iri { workBuilder with normalize := true }).2 = 94 ∧
    Work.builtDisplay .uri ⟨{ workBuilder with normalize := true }, true⟩ =
      (some (chars! "http://u:p@example.com:80/a/c~?q=1"), 125) := by
  decide +kernel

example : Rfc.path .uri workBuilder.path :=
  (C05_path .uri workBuilder.path).1 (by decide +kernel)

end Verif
