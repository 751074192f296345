import Verif.Library.Buffers
import Verif.Problems.Model
import Verif.Base.XQ

/-!
# Sizes of the work buffers (C99)
-/

namespace Nmpc.Buffers

variable {α : Type} [Add α] [Mul α] [FOps α] {n : ℕ}

/-- The buffers of a stage with `m` inputs, apart from those of the second derivatives of the dynamics. -/
structure Deriv.Shaped {I : Dim} (d : Deriv n I) (m : ℕ) : Prop where
  Fx : (d.Fx.r, d.Fx.c) = (n, n)
  Fu : (d.Fu.r, d.Fu.c) = (n, m)
  Lx : (d.Lx.r, d.Lx.c) = (n, 1)
  Lu : (d.Lu.r, d.Lu.c) = (m, 1)
  Lxx : (d.Lxx.r, d.Lxx.c) = (n, n)
  Luu : (d.Luu.r, d.Luu.c) = (m, m)
  Lxu : (d.Lxu.r, d.Lxu.c) = (n, m)

/-- The buffers of the second derivatives of the dynamics: one matrix for each of the `o` components. -/
structure Deriv.Second {I : Dim} (d : Deriv n I) (m o : ℕ) : Prop where
  xx : d.Fxx.map (fun b => (b.r, b.c)) = List.replicate o (n, n)
  uu : d.Fuu.map (fun b => (b.r, b.c)) = List.replicate o (m, m)
  xu : d.Fxu.map (fun b => (b.r, b.c)) = List.replicate o (n, m)

/-- The buffers of a running step with `m` inputs and `p` inequalities. -/
structure Coef.Shaped {I P : Dim} (d : Coef n I P) (m p : ℕ) : Prop where
  A : (d.A.r, d.A.c) = (n, n)
  B : (d.B.r, d.B.c) = (n, m)
  C : (d.C.r, d.C.c) = (p, n)
  D : (d.D.r, d.D.c) = (p, m)
  Lx : (d.Lx.r, d.Lx.c) = (n, 1)
  Lu : (d.Lu.r, d.Lu.c) = (m, 1)
  Lxx : (d.Lxx.r, d.Lxx.c) = (n, n)
  Luu : (d.Luu.r, d.Luu.c) = (m, m)
  Lxu : (d.Lxu.r, d.Lxu.c) = (n, m)
  xBar : (d.xBar.r, d.xBar.c) = (n, 1)
  gBar : (d.gBar.r, d.gBar.c) = (p, 1)
  LxBar : (d.LxBar.r, d.LxBar.c) = (n, 1)
  LuBar : (d.LuBar.r, d.LuBar.c) = (m, 1)
  k : (d.k.r, d.k.c) = (m, 1)
  K : (d.K.r, d.K.c) = (m, n)
  s : (d.s.r, d.s.c) = (n, 1)
  Pm : (d.Pm.r, d.Pm.c) = (n, n)

/-- The buffers used at the terminal step. -/
structure Coef.Terminal {I P : Dim} (d : Coef n I P) : Prop where
  Lx : (d.Lx.r, d.Lx.c) = (n, 1)
  Lxx : (d.Lxx.r, d.Lxx.c) = (n, n)
  LxBar : (d.LxBar.r, d.LxBar.c) = (n, 1)
  s : (d.s.r, d.s.c) = (n, 1)
  Pm : (d.Pm.r, d.Pm.c) = (n, n)

/-! ### Lemmas -/

theorem sized_ok {R C : Dim} {r c : ℕ} (hr : Allows R r) (hc : Allows C c) : Buf.sized R C r c = .ok ⟨r, c, hr, hc⟩ := by
  unfold Buf.sized; rw [dif_pos ⟨hr, hc⟩]

theorem sized_ub {R C : Dim} {r c : ℕ} (h : ¬(Allows R r ∧ Allows C c)) : Buf.sized R C r c = .ub := by
  unfold Buf.sized; rw [dif_neg h]

theorem allows_self (k : ℕ) : Allows (some k) k := rfl

theorem new_ok {I : Dim} {m : ℕ} (o : ℕ) (h : Allows I m) :
    ∃ d, Deriv.new n I n m o = .ok d ∧ d.Shaped m ∧ d.Second m o := by
  unfold Deriv.new
  simp only [sized_ok (allows_self _) (allows_self _), sized_ok (allows_self _) h, sized_ok h h, sized_ok h (allows_self _),
    Res.bind_ok, Res.map]
  exact ⟨_, rfl, ⟨rfl, rfl, rfl, rfl, rfl, rfl, rfl⟩, ⟨by simp, by simp, by simp⟩⟩

theorem coef_ok {I P : Dim} {m p : ℕ} (h : Allows I m) (h' : Allows P p) :
    ∃ d, Coef.new n I P n m p = .ok d ∧ d.Shaped m p := by
  unfold Coef.new
  simp only [sized_ok (allows_self _) (allows_self _), sized_ok (allows_self _) h, sized_ok h h, sized_ok h (allows_self _),
    sized_ok h' (allows_self _), sized_ok h' h, Res.bind_ok, Res.map]
  exact ⟨_, rfl, ⟨rfl, rfl, rfl, rfl, rfl, rfl, rfl, rfl, rfl, rfl, rfl, rfl, rfl, rfl, rfl, rfl, rfl⟩⟩

theorem coef_ub {I P : Dim} {m p : ℕ} (h : ¬Allows I m) : Coef.new n I P n m p = .ub := by
  unfold Coef.new
  simp only [sized_ok (allows_self _) (allows_self _), sized_ub (fun e : Allows (some n) n ∧ Allows I m => h e.2), Res.bind_ok, Res.bind_ub]

theorem terminal_ok (I P : Dim) : ∃ d, Coef.terminal n I P n = .ok d ∧ d.Terminal := by
  unfold Coef.terminal
  simp only [sized_ok (allows_self _) (allows_self _), Res.bind_ok, Res.map]
  exact ⟨_, rfl, ⟨rfl, rfl, rfl, rfl, rfl⟩⟩

theorem pushFrom_ok {β : Type} {f : ℕ → Res β} (g : ℕ → β) {r i : ℕ} (l : List β) (h : ∀ j < r, f (i + j) = .ok (g (i + j))) :
    pushFrom f r i l = (l ++ (List.range r).map (fun j => g (i + j)), .ok ()) := by
  induction r generalizing i l with
  | zero => simp [pushFrom]
  | succ r ih =>
    unfold pushFrom
    have h0 := h 0 (by omega)
    rw [Nat.add_zero] at h0
    rw [h0]
    dsimp only
    rw [ih (l ++ [g i]) (fun j hj => by have := h (j + 1) (by omega); rw [show i + (j + 1) = i + 1 + j by omega] at this; exact this),
      List.range_succ_eq_map, List.map_cons, List.map_map]
    simp [Function.comp_def, Nat.add_assoc, Nat.add_comm 1]

theorem pushFrom_fail {β : Type} {f : ℕ → Res β} {r i : ℕ} {l : List β} (hr : 0 < r) (h : ∀ b, f i ≠ .ok b) :
    (pushFrom f r i l).2 = (f i).map fun _ => () := by
  obtain ⟨r, rfl⟩ := Nat.exists_eq_succ_of_ne_zero hr.ne'
  unfold pushFrom
  cases hf : f i <;> simp_all [Res.map, Res.bind]

theorem resizeList_length {β : Type} (N : ℕ) (v : β) (l : List β) : (resizeList N v l).length = N := by
  simp [resizeList]; omega

theorem resizeList_old {β : Type} {N : ℕ} {v : β} {l : List β} {i : ℕ} (h : i < l.length) (hN : i < N) :
    (resizeList N v l)[i]? = some l[i] := by
  unfold resizeList
  rw [List.getElem?_append_left (by simp; omega), List.getElem?_take_of_lt hN, List.getElem?_eq_getElem h]

theorem resizeList_new {β : Type} {N : ℕ} {v : β} {l : List β} {i : ℕ} (h : l.length ≤ i) (hN : i < N) :
    (resizeList N v l)[i]? = some v := by
  unfold resizeList
  rw [List.getElem?_append_right (by simp; omega), List.getElem?_replicate, if_pos (by simp; omega)]

theorem Deriv.fixed_shaped {k : ℕ} (d : Deriv n (some k)) : d.Shaped k :=
  ⟨Prod.ext d.Fx.hr d.Fx.hc, Prod.ext d.Fu.hr d.Fu.hc, Prod.ext d.Lx.hr d.Lx.hc, Prod.ext d.Lu.hr d.Lu.hc,
    Prod.ext d.Lxx.hr d.Lxx.hc, Prod.ext d.Luu.hr d.Luu.hc, Prod.ext d.Lxu.hr d.Lxu.hc⟩

theorem Coef.fixed_shaped {k p : ℕ} (d : Coef n (some k) (some p)) : d.Shaped k p :=
  ⟨Prod.ext d.A.hr d.A.hc, Prod.ext d.B.hr d.B.hc, Prod.ext d.C.hr d.C.hc, Prod.ext d.D.hr d.D.hc, Prod.ext d.Lx.hr d.Lx.hc,
    Prod.ext d.Lu.hr d.Lu.hc, Prod.ext d.Lxx.hr d.Lxx.hc, Prod.ext d.Luu.hr d.Luu.hc, Prod.ext d.Lxu.hr d.Lxu.hc,
    Prod.ext d.xBar.hr d.xBar.hc, Prod.ext d.gBar.hr d.gBar.hc, Prod.ext d.LxBar.hr d.LxBar.hc, Prod.ext d.LuBar.hr d.LuBar.hc,
    Prod.ext d.k.hr d.k.hc, Prod.ext d.K.hr d.K.hc, Prod.ext d.s.hr d.s.hc, Prod.ext d.Pm.hr d.Pm.hc⟩

/-! ### DDP -/

/-- **C99**, DDP with dynamic input dimension: whatever calls came before, the setup of `solve` ends normally and leaves one
`Derivative` per step, with the sizes for the input dimension at the time of the step, and with one second derivative per
state component if they are asked for and none otherwise. -/
theorem C99_ddp_dynamic {D : ProblemDim α} {f : α → ℕ} (hp : D.param = none) (ho : D.override = some f) (dt : α)
    (calls : List (Call α)) (c : Call α) :
    (ddpSetup n D dt (ddpBuffers n D dt calls) c).2 = .ok () ∧ (ddpBuffers n D dt (calls ++ [c])).length = c.horizon ∧
    ∀ i < c.horizon, ∃ d, (ddpBuffers n D dt (calls ++ [c]))[i]? = some d ∧ d.Shaped (f (DDP.timeAt c.t dt i)) ∧
      d.Second (f (DDP.timeAt c.t dt i)) (if c.second then n else 0) := by
  have hal : ∀ m, Allows D.param m := fun m => by rw [hp]; trivial
  have hnew := fun i => new_ok (n := n) (I := D.param) (m := f (DDP.timeAt c.t dt i)) (if c.second then n else 0) (hal _)
  choose g hg1 hg2 hg3 using hnew
  have e : ddpSetup n D dt (ddpBuffers n D dt calls) c = ((List.range c.horizon).map fun j => g (0 + j), .ok ()) := by
    unfold ddpSetup
    dsimp only
    rw [if_pos hp, pushFrom_ok g]
    · simp
    · intro j _
      unfold ProblemDim.at
      rw [ho]
      exact hg1 _
  have e' : ddpBuffers n D dt (calls ++ [c]) = (List.range c.horizon).map fun j => g (0 + j) := by
    unfold ddpBuffers
    rw [List.foldl_append]
    exact congrArg Prod.fst e
  rw [e, e']
  refine ⟨rfl, by simp, fun i hi => ⟨g i, ?_, hg2 i, hg3 i⟩⟩
  simp [List.getElem?_map, List.getElem?_range hi]

/-- **C99**, DDP with fixed input dimension. -/
theorem C99_ddp_fixed {D : ProblemDim α} {k : ℕ} (hp : D.param = some k) (dt : α) (calls : List (Call α)) (c : Call α) :
    (ddpSetup n D dt (ddpBuffers n D dt calls) c).2 = .ok () ∧ (ddpBuffers n D dt (calls ++ [c])).length = c.horizon ∧
    ∀ i < c.horizon, ∃ d, (ddpBuffers n D dt (calls ++ [c]))[i]? = some d ∧ d.Shaped k := by
  obtain ⟨P, o⟩ := D
  dsimp only at hp
  subst hp
  obtain ⟨d, h1, -, -⟩ := new_ok (n := n) (I := some k) (if c.second then n else 0) (allows_self k)
  have e : ddpSetup n ⟨some k, o⟩ dt (ddpBuffers n ⟨some k, o⟩ dt calls) c =
      (resizeList c.horizon d (ddpBuffers n ⟨some k, o⟩ dt calls), .ok ()) := by
    unfold ddpSetup
    dsimp only
    rw [if_neg (by simp)]
    simp only [ProblemDim.plain, Res.bind_ok, h1]
  have e' : ddpBuffers n ⟨some k, o⟩ dt (calls ++ [c]) = resizeList c.horizon d (ddpBuffers n ⟨some k, o⟩ dt calls) := by
    conv_lhs => unfold ddpBuffers
    rw [List.foldl_append]
    exact congrArg Prod.fst e
  rw [e, e']
  refine ⟨rfl, resizeList_length _ _ _, fun i hi => ?_⟩
  have hl : i < (resizeList c.horizon d (ddpBuffers n ⟨some k, o⟩ dt calls)).length := by rw [resizeList_length]; exact hi
  exact ⟨_, List.getElem?_eq_getElem hl, Deriv.fixed_shaped _⟩

/-- **C99** (defect) With fixed input dimension the buffers of the second derivatives are those of the call that created
them: if `use_state_eq_second_derivative` is set after a call with `N₁` steps, then the first `N₁` steps of the next call hand
empty lists to `calcStateEqDeriv`, and only the further ones have one matrix per state component. -/
theorem C99_ddp_second_stale {D : ProblemDim α} {k : ℕ} (hp : D.param = some k) (dt t₁ t₂ : α) (N₁ N₂ : ℕ) :
    ∀ i < N₂, ∃ d, (ddpBuffers n D dt [⟨t₁, N₁, false⟩, ⟨t₂, N₂, true⟩])[i]? = some d ∧
      d.Second k (if i < N₁ then 0 else n) := by
  intro i hi
  obtain ⟨P, o⟩ := D
  dsimp only at hp
  subst hp
  obtain ⟨d₁, h1, -, h1'⟩ := new_ok (n := n) (I := some k) 0 (allows_self k)
  obtain ⟨d₂, h2, -, h2'⟩ := new_ok (n := n) (I := some k) n (allows_self k)
  have e : ddpBuffers n ⟨some k, o⟩ dt [⟨t₁, N₁, false⟩, ⟨t₂, N₂, true⟩] = resizeList N₂ d₂ (resizeList N₁ d₁ []) := by
    simp [ddpBuffers, ddpSetup, ProblemDim.plain, h1, h2]
  rw [e]
  by_cases h : i < N₁
  · rw [if_pos h]
    refine ⟨d₁, ?_, h1'⟩
    rw [resizeList_old (by rw [resizeList_length]; exact h) hi]
    have := resizeList_new (N := N₁) (v := d₁) (l := []) (i := i) (by simp) h
    rw [List.getElem?_eq_getElem (by rw [resizeList_length]; exact h)] at this
    exact this
  · rw [if_neg h]
    exact ⟨d₂, resizeList_new (by rw [resizeList_length]; omega) hi, h2'⟩

/-- **C99** A dynamic input dimension without overriding `inputDim(t)` makes the setup throw `std::runtime_error`, unless
the horizon is empty. -/
theorem C99_ddp_not_overridden {D : ProblemDim α} (hp : D.param = none) (ho : D.override = none) (dt : α)
    (old : List (Deriv n D.param)) {c : Call α} (hN : 0 < c.horizon) : (ddpSetup n D dt old c).2 = .runtimeError := by
  unfold ddpSetup
  dsimp only
  rw [if_pos hp]
  have : ∀ i, ((D.at (DDP.timeAt c.t dt i)).bind fun m => Deriv.new n D.param n m (if c.second then n else 0)) = .runtimeError := by
    intro i; unfold ProblemDim.at; rw [ho, hp]; rfl
  rw [pushFrom_fail hN (by intro b; rw [this]; simp), this]
  rfl

/-! ### Fast MPC -/

/-- **C99**, fast MPC with a dynamic input or inequality dimension. -/
theorem C99_fmpc_dynamic {I P : ProblemDim α} (hp : I.param = none ∨ P.param = none) (dt : α) (calls : List (Call α))
    (c : Call α) {m p : ℕ → ℕ} (hm : ∀ i < c.horizon, I.at (DDP.timeAt c.t dt i) = .ok (m i) ∧ Allows I.param (m i))
    (hq : ∀ i < c.horizon, P.at (DDP.timeAt c.t dt i) = .ok (p i) ∧ Allows P.param (p i)) :
    (fmpcSetup n I P dt (fmpcBuffers n I P dt calls) c).2 = .ok () ∧
    (fmpcBuffers n I P dt (calls ++ [c])).length = c.horizon + 1 ∧
    (∀ i < c.horizon, ∃ d, (fmpcBuffers n I P dt (calls ++ [c]))[i]? = some d ∧ d.Shaped (m i) (p i)) ∧
    ∃ d, (fmpcBuffers n I P dt (calls ++ [c]))[c.horizon]? = some d ∧ d.Terminal := by
  have hnew : ∀ i, ∃ d : Coef n I.param P.param, i < c.horizon → Coef.new n I.param P.param n (m i) (p i) = .ok d ∧ d.Shaped (m i) (p i) := by
    intro i
    by_cases h : i < c.horizon
    · obtain ⟨d, h1, h2⟩ := coef_ok (n := n) (hm i h).2 (hq i h).2
      exact ⟨d, fun _ => ⟨h1, h2⟩⟩
    · obtain ⟨d, -, -⟩ := terminal_ok (n := n) I.param P.param
      exact ⟨d, fun h' => absurd h' h⟩
  choose g hg using hnew
  obtain ⟨d, hd, hd'⟩ := terminal_ok (n := n) I.param P.param
  have e : fmpcSetup n I P dt (fmpcBuffers n I P dt calls) c = ((List.range c.horizon).map (fun j => g (0 + j)) ++ [d], .ok ()) := by
    unfold fmpcSetup
    dsimp only
    rw [if_pos hp, pushFrom_ok g]
    · dsimp only
      rw [hd]
      simp
    · intro j hj
      rw [Nat.zero_add, (hm j hj).1, Res.bind_ok, (hq j hj).1, Res.bind_ok]
      exact (hg j hj).1
  have e' : fmpcBuffers n I P dt (calls ++ [c]) = (List.range c.horizon).map (fun j => g (0 + j)) ++ [d] := by
    conv_lhs => unfold fmpcBuffers
    rw [List.foldl_append]
    exact congrArg Prod.fst e
  rw [e, e']
  refine ⟨rfl, by simp, fun i hi => ⟨g i, ?_, (hg i hi).2⟩, d, by simp, hd'⟩
  rw [List.getElem?_append_left (by simpa using hi)]
  simp [List.getElem?_map, List.getElem?_range hi]

/-- **C99**, fast MPC with fixed dimensions: also the element that was the terminal one of an earlier call with a shorter
horizon has the right sizes. -/
theorem C99_fmpc_fixed {I P : ProblemDim α} {k q : ℕ} (hI : I.param = some k) (hP : P.param = some q) (dt : α)
    (calls : List (Call α)) (c : Call α) :
    (fmpcSetup n I P dt (fmpcBuffers n I P dt calls) c).2 = .ok () ∧
    (fmpcBuffers n I P dt (calls ++ [c])).length = c.horizon + 1 ∧
    (∀ i < c.horizon, ∃ d, (fmpcBuffers n I P dt (calls ++ [c]))[i]? = some d ∧ d.Shaped k q) ∧
    ∃ d, (fmpcBuffers n I P dt (calls ++ [c]))[c.horizon]? = some d ∧ d.Terminal := by
  obtain ⟨I, o⟩ := I
  obtain ⟨P, o'⟩ := P
  dsimp only at hI hP
  subst hI hP
  obtain ⟨d, h1, -⟩ := coef_ok (n := n) (allows_self k) (allows_self q)
  obtain ⟨d', hd, hd'⟩ := terminal_ok (n := n) (some k) (some q)
  set old := fmpcBuffers n ⟨some k, o⟩ ⟨some q, o'⟩ dt calls with hold
  have e : fmpcSetup n ⟨some k, o⟩ ⟨some q, o'⟩ dt old c = (resizeList c.horizon d old ++ [d'], .ok ()) := by
    unfold fmpcSetup
    dsimp only
    rw [if_neg (by simp)]
    simp only [ProblemDim.plain, Res.bind_ok, h1, hd]
  have e' : fmpcBuffers n ⟨some k, o⟩ ⟨some q, o'⟩ dt (calls ++ [c]) = resizeList c.horizon d old ++ [d'] := by
    conv_lhs => unfold fmpcBuffers
    rw [List.foldl_append]
    exact congrArg Prod.fst e
  rw [e, e']
  have hlen := resizeList_length c.horizon d old
  refine ⟨rfl, by rw [List.length_append, hlen]; rfl, fun i hi => ?_, d', ?_, hd'⟩
  · have hl : i < (resizeList c.horizon d old ++ [d']).length := by rw [List.length_append, hlen]; exact Nat.lt_succ_of_lt hi
    exact ⟨_, List.getElem?_eq_getElem hl, Coef.fixed_shaped _⟩
  · rw [List.getElem?_append_right hlen.le, hlen, Nat.sub_self]
    rfl

/-- **C99** A dynamic dimension without overriding the function of the time makes the setup throw `std::runtime_error`. -/
theorem C99_fmpc_not_overridden {I P : ProblemDim α} (hp : I.param = none) (ho : I.override = none) (dt : α)
    (old : List (Coef n I.param P.param)) {c : Call α} (hN : 0 < c.horizon) : (fmpcSetup n I P dt old c).2 = .runtimeError := by
  unfold fmpcSetup
  dsimp only
  rw [if_pos (.inl hp)]
  have : ∀ i, ((I.at (DDP.timeAt c.t dt i)).bind fun m => (P.at (DDP.timeAt c.t dt i)).bind fun p =>
      Coef.new n I.param P.param n m p) = .runtimeError := by
    intro i; unfold ProblemDim.at; rw [ho, hp]; rfl
  rw [pushFrom_fail hN (by intro b; rw [this]; simp), this]
  rfl

omit [Add α] [Mul α] [FOps α] in
/-- **C99**, the dimension functions: without argument they return the template parameter, or throw `std::runtime_error` if it is dynamic; with a time they return the value of the
override, and behave like the functions without argument if there is none. -/
theorem C99_dims (D : ProblemDim α) (t : α) :
    (∀ k, D.plain = .ok k ↔ D.param = some k) ∧ (D.plain = .runtimeError ↔ D.param = none) ∧
    (∀ f, D.override = some f → D.at t = .ok (f t)) ∧ (D.override = none → D.at t = D.plain) := by
  obtain ⟨p, o⟩ := D
  cases p <;> cases o <;> simp [ProblemDim.plain, ProblemDim.at]

/-- **C99** (mixed dimensions) With fixed input dimension and dynamic inequality dimension, `solve` calls `inputDim(t)`; if
that is overridden with another value for the first step, the allocation fails (an assertion of Eigen). -/
theorem C99_fmpc_mismatch {I P : ProblemDim α} {k : ℕ} {f : α → ℕ} {p : ℕ} (hI : I.param = some k) (ho : I.override = some f)
    (hP : P.param = none) (dt : α) (old : List (Coef n I.param P.param)) {c : Call α} (hN : 0 < c.horizon)
    (hf : f (DDP.timeAt c.t dt 0) ≠ k) (hp : P.at (DDP.timeAt c.t dt 0) = .ok p) : (fmpcSetup n I P dt old c).2 = .ub := by
  unfold fmpcSetup
  dsimp only
  rw [if_pos (.inr hP)]
  have : ((I.at (DDP.timeAt c.t dt 0)).bind fun m => (P.at (DDP.timeAt c.t dt 0)).bind fun p =>
      Coef.new n I.param P.param n m p) = .ub := by
    rw [show I.at (DDP.timeAt c.t dt 0) = .ok (f (DDP.timeAt c.t dt 0)) by unfold ProblemDim.at; rw [ho], Res.bind_ok, hp, Res.bind_ok]
    exact coef_ub (by rw [hI]; exact hf)
  rw [pushFrom_fail hN (by intro b; rw [this]; simp), this]
  rfl

/-! ### Examples -/

/-- The vertical motion example: two state components, 1 input at 1.99 s and 2 inputs at 2 s, in the second of two calls. -/
example : ∃ d₀ d₁ : Deriv 2 none,
    (ddpBuffers 2 ⟨none, some Problems.Vertical.inputDim⟩ (XQ.fin (1 / 100)) [⟨.fin 0, 2, false⟩, ⟨.fin (199 / 100), 2, false⟩])[0]? = some d₀ ∧
    (ddpBuffers 2 ⟨none, some Problems.Vertical.inputDim⟩ (XQ.fin (1 / 100)) [⟨.fin 0, 2, false⟩, ⟨.fin (199 / 100), 2, false⟩])[1]? = some d₁ ∧
    d₀.Shaped 1 ∧ d₁.Shaped 2 := by
  obtain ⟨-, -, h⟩ := C99_ddp_dynamic (n := 2) (D := ⟨none, some Problems.Vertical.inputDim⟩) rfl rfl (XQ.fin (1 / 100))
    [⟨.fin 0, 2, false⟩] ⟨.fin (199 / 100), 2, false⟩
  obtain ⟨d₀, a, b, -⟩ := h 0 (by decide)
  obtain ⟨d₁, a', b', -⟩ := h 1 (by decide)
  rw [show Problems.Vertical.inputDim (DDP.timeAt (XQ.fin (199 / 100)) (.fin (1 / 100)) 0) = 1 by decide +kernel] at b
  rw [show Problems.Vertical.inputDim (DDP.timeAt (XQ.fin (199 / 100)) (.fin (1 / 100)) 1) = 2 by decide +kernel] at b'
  exact ⟨d₀, d₁, a, a', b, b'⟩

/-- Four state components and one input: the option is switched on for the second call. -/
example : (ddpBuffers 4 ⟨some 1, none⟩ (XQ.fin 1) [⟨.fin 0, 2, false⟩, ⟨.fin 1, 3, true⟩]).map (fun d => d.Fxx.length) = [0, 0, 4] := by
  decide +kernel

/-- A longer horizon in the second call: four elements, the former terminal one in the middle. -/
example : (fmpcBuffers 4 ⟨some 1, none⟩ ⟨some 3, none⟩ (XQ.fin 1) [⟨.fin 0, 1, false⟩, ⟨.fin 1, 3, false⟩]).map
    (fun d => (d.B.c, d.C.r, d.D.r, d.K.c)) = [(1, 3, 3, 4), (1, 3, 3, 4), (1, 3, 3, 4), (1, 3, 3, 4)] := by
  decide +kernel

/-- Dynamic dimensions: the number of inputs is 1, then 2; the terminal element has no columns for inputs. -/
example : (fmpcBuffers 4 ⟨none, some fun t => if t = XQ.fin 1 then 1 else 2⟩ ⟨some 3, none⟩ (XQ.fin 1)
    [⟨.fin 0, 1, false⟩, ⟨.fin 1, 2, false⟩]).map (fun d => (d.B.c, d.C.r, d.Luu.r)) = [(1, 3, 1), (2, 3, 2), (0, 3, 0)] := by
  decide +kernel

end Nmpc.Buffers
