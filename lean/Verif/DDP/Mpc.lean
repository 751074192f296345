import Verif.DDP.Defined
import Mathlib.Algebra.Order.Floor.Ring
import Mathlib.Algebra.Order.Archimedean.Real.Basic
import Mathlib.Tactic.Push

/-!
# The receding-horizon loops of the DDP examples (C67)
-/

set_option linter.unusedSectionVars false

namespace Nmpc.DDP

section Model

variable {α : Type} [Add α] [Sub α] [Mul α] [Div α] [Neg α] [Zero α] [One α] [FOps α]

/-- What one round of the loop writes to its file (time, planned state, planned input): TestDDPBipedal.cpp 259-260,
TestDDPVerticalMotion.cpp 305-308, TestDDPCentroidalMotion.cpp 326-331. -/
structure MpcLine (n : ℕ) (α : Type) where
  t : α
  x : Vec n α
  u : Σ k : ℕ, Vec k α

/-- Local variables of the loop, the number of rounds done, the solver and the lines written. -/
structure Mpc (n : ℕ) (α : Type) where
  k : ℕ
  t : α
  x : Vec n α
  us : List (Σ k : ℕ, Vec k α)
  obj : Obj n α
  log : List (MpcLine n α)

/-- `erase(begin())` followed by `push_back(back())` (TestDDPBipedal.cpp 266-267).  Both are undefined for empty lists. -/
def shiftRepeat (us : List (Σ k : ℕ, Vec k α)) : Res (List (Σ k : ℕ, Vec k α)) :=
  match us with
  | [] => .ub
  | _ :: rest =>
    match rest.getLast? with
    | none => .ub
    | some u => .ok (rest ++ [u])

/-- `erase(begin())`, then the last input again if it has the dimension `dim` of the new last step, otherwise zeros
(TestDDPVerticalMotion.cpp 313-324, TestDDPCentroidalMotion.cpp 336-346). -/
def shiftDim (dim : ℕ) (us : List (Σ k : ℕ, Vec k α)) : Res (List (Σ k : ℕ, Vec k α)) :=
  match us with
  | [] => .ub
  | _ :: rest =>
    match rest.getLast? with
    | none => .ub
    | some u => .ok (rest ++ [if u.1 = dim then u else ⟨dim, fun _ => 0⟩])

/-- One round of `while(current_t < end_t)` (TestDDPBipedal.cpp 243-268, TestDDPVerticalMotion.cpp 290-326,
TestDDPCentroidalMotion.cpp 307-348).  The configuration may change between rounds (`config().max_iter = 3`), the buffers of the
solver may hold anything.  `EXPECT`s and the file format are not modelled; `x_list[1]` and `u_list[0]` are undefined if missing. -/
def mpcStep {n : ℕ} {md : α → ℕ} (L : LLT α) (P : Callbacks n md) (lim : Option ((t : α) → Vec (md t) α × Vec (md t) α)) (dt : α)
    (cfgs : ℕ → Config α) (scr : ℕ → (t : α) → Scratch n (fun i => md (timeAt t dt i)) α)
    (shift : α → List (Σ k : ℕ, Vec k α) → Res (List (Σ k : ℕ, Vec k α))) (endT : α) (s : Mpc n α) : Mpc n α ⊕ Res (Mpc n α) :=
  if ltb s.t endT then
    match solve L P lim dt (cfgs s.k) s.obj s.t (scr s.k s.t) s.x s.us with
    | (o, .ok _) =>
      match o.control.xs[0]?, o.control.us[0]?, o.control.xs[1]?, shift s.t o.control.us with
      | some x0, some u0, some x1, .ok us =>
        .inl { k := s.k + 1, t := s.t + dt, x := x1, us := us, obj := o, log := s.log ++ [{ t := s.t, x := x0, u := u0 }] }
      | _, _, _, _ => .inr .ub
    | (_, .invalidArgument) => .inr .invalidArgument
    | (_, .runtimeError) => .inr .runtimeError
    | (_, .otherException) => .inr .otherException
    | (_, .ub) => .inr .ub
    | (_, .diverge) => .inr .diverge
  else .inr (.ok s)

/-- The loop from its initialisation on (TestDDPBipedal.cpp 232-268, TestDDPVerticalMotion.cpp 275-326,
TestDDPCentroidalMotion.cpp 287-348). -/
def mpcLoop {n : ℕ} {md : α → ℕ} (L : LLT α) (P : Callbacks n md) (lim : Option ((t : α) → Vec (md t) α × Vec (md t) α)) (dt : α)
    (cfgs : ℕ → Config α) (scr : ℕ → (t : α) → Scratch n (fun i => md (timeAt t dt i)) α)
    (shift : α → List (Σ k : ℕ, Vec k α) → Res (List (Σ k : ℕ, Vec k α))) (endT : α) (o : Obj n α) (t0 : α) (x0 : Vec n α)
    (us : List (Σ k : ℕ, Vec k α)) : Res (Mpc n α) :=
  loopR (mpcStep L P lim dt cfgs scr shift endT) { k := 0, t := t0, x := x0, us := us, obj := o, log := [] }

/-- The zero inputs of the right dimensions the loops start with (TestDDPBipedal.cpp 235-236, TestDDPVerticalMotion.cpp 278-283,
TestDDPCentroidalMotion.cpp 291-296). -/
def zeroInputs (md : α → ℕ) (t0 dt : α) (N : ℕ) : List (Σ k : ℕ, Vec k α) :=
  (List.range N).map fun i : ℕ => ⟨md (t0 + lit (i : ℚ) * dt), fun _ => 0⟩

end Model

variable {n : ℕ} {md : ℝ → ℕ} {L : LLT ℝ} {P : Callbacks n md} {lim : Option ((t : ℝ) → Vec (md t) ℝ × Vec (md t) ℝ)}
  {dt : ℝ} {cfgs : ℕ → Config ℝ} {scr : ℕ → (t : ℝ) → Scratch n (fun i => md (timeAt t dt i)) ℝ}
  {shift : ℝ → List (Σ k : ℕ, Vec k ℝ) → Res (List (Σ k : ℕ, Vec k ℝ))} {endT t0 : ℝ} {o : Obj n ℝ} {x0 : Vec n ℝ}
  {us : List (Σ k : ℕ, Vec k ℝ)} {N : ℕ}

/-- What the loops need of the way the warm start is shifted: the plan for time `t` becomes a list of inputs of the right number and
dimensions for time `t + dt`, and what the two plans say about the same time agrees. -/
def ShiftOk (md : ℝ → ℕ) (dt : ℝ) (N : ℕ) (shift : ℝ → List (Σ k : ℕ, Vec k ℝ) → Res (List (Σ k : ℕ, Vec k ℝ))) : Prop :=
  ∀ t us, us.length = N → DimsOk md t dt us → ∃ us', shift t us = .ok us' ∧ us'.length = N ∧ DimsOk md (t + dt) dt us' ∧
    ∀ i : ℕ, i + 1 < N → us'[i]? = us[i + 1]?

theorem shiftDim_ok (hN : 2 ≤ N) : ShiftOk md dt N fun t => shiftDim (md (t + lit (N : ℚ) * dt)) := by
  intro t us hlen hd
  match us, hlen with
  | [], h => simp at h; omega
  | a :: rest, h =>
    have hr : rest ≠ [] := by rintro rfl; simp at h; omega
    simp only [List.length_cons] at h
    refine ⟨rest ++ [if (rest.getLast hr).1 = md (t + lit (N : ℚ) * dt) then rest.getLast hr else
      ⟨md (t + lit (N : ℚ) * dt), fun _ => 0⟩], ?_, by simp [h], ?_, ?_⟩
    · simp [shiftDim, List.getLast?_eq_some_getLast hr]
    · intro i hi
      simp only [List.length_append, List.length_singleton] at hi
      by_cases h1 : i < rest.length
      · rw [List.getElem_append_left h1]
        have := hd (i + 1) (by simpa using h1)
        simp only [List.getElem_cons_succ] at this
        rw [this]
        congr 1
        simp only [lit_real]
        push_cast
        ring
      · have : i = rest.length := by omega
        subst this
        rw [List.getElem_append_right (le_refl _)]
        have ht : t + lit (N : ℚ) * dt = t + dt + lit (rest.length : ℚ) * dt := by
          rw [← h]; simp only [lit_real]; push_cast; ring
        simp only [Nat.sub_self, List.getElem_singleton]
        rw [← ht]
        split
        · assumption
        · rfl
    · intro i hi
      rw [List.getElem?_append_left (by omega), List.getElem?_cons_succ]

theorem shiftRepeat_ok (hN : 2 ≤ N) (hc : ∀ t t', md t = md t') : ShiftOk md dt N fun _ => shiftRepeat := by
  intro t us hlen hd
  obtain ⟨us', h1, h2⟩ := shiftDim_ok (md := md) (dt := dt) hN t us hlen hd
  refine ⟨us', ?_, h2⟩
  match us, hlen with
  | [], h => simp at h; omega
  | a :: rest, h =>
    have hr : rest ≠ [] := by rintro rfl; simp at h; omega
    rw [← h1]
    have hl : (rest.getLast hr).1 = md (t + lit (N : ℚ) * dt) := by
      rw [List.getLast_eq_getElem]
      have := hd rest.length (by simp)
      rw [hc _ (t + lit (rest.length : ℚ) * dt), ← this, List.getElem_cons]
      simp only [List.length_eq_zero_iff, hr, dite_false]
    simp [shiftDim, shiftRepeat, List.getLast?_eq_some_getLast hr, hl]

theorem zeroInputs_ok : (zeroInputs md t0 dt N).length = N ∧ DimsOk md t0 dt (zeroInputs md t0 dt N) := by
  refine ⟨by simp [zeroInputs], fun i hi => ?_⟩
  simp only [zeroInputs, List.getElem_map, List.getElem_range]

/-- Conditions on the configuration of one round. -/
structure RoundOk (lim : Option ((t : ℝ) → Vec (md t) ℝ × Vec (md t) ℝ)) (N : ℕ) (cfg : Config ℝ) : Prop where
  horizon : cfg.horizon = N
  factor : 1 < cfg.lambdaFactor
  lambdaMin : 0 < cfg.lambdaMin
  second : cfg.useSecond = false
  limits : cfg.withConstraint = true → lim.isSome = true

/-- Specification of the closed loop: states and inputs of the rounds so far. -/
structure ClosedLoop (P : Callbacks n md) (dt t0 : ℝ) (x0 : Vec n ℝ) (N : ℕ) (s : Mpc n ℝ) : Prop where
  time : s.t = t0 + s.k * dt
  len : s.log.length = s.k
  lines : ∃ (X : ℕ → Vec n ℝ) (U : (k : ℕ) → Vec (md (t0 + k * dt)) ℝ), X 0 = x0 ∧
    (∀ k, k < s.k → X (k + 1) = P.stateEq (t0 + k * dt) (X k) (U k)) ∧
    (∀ k, k < s.k → s.log[k]? = some { t := t0 + k * dt, x := X k, u := ⟨md (t0 + k * dt), U k⟩ }) ∧ s.x = X s.k
  warmLen : s.us.length = N
  warmDims : DimsOk md s.t dt s.us
  warm : 0 < s.k → ∀ i : ℕ, i + 1 < N → s.us[i]? = s.obj.control.us[i + 1]?

theorem mpcStep_ok (hN : 1 ≤ N) (hs : ShiftOk md dt N shift) (hc : ∀ k, RoundOk lim N (cfgs k)) {s : Mpc n ℝ}
    (h : ClosedLoop P dt t0 x0 N s) (ht : s.t < endT) :
    ∃ s', mpcStep L P lim dt cfgs scr shift endT s = .inl s' ∧ s'.k = s.k + 1 ∧ ClosedLoop P dt t0 x0 N s' := by
  have hlen : (s.us.length : ℤ) = (cfgs s.k).horizon := by rw [(hc s.k).horizon, h.warmLen]
  obtain ⟨b, hb⟩ := C66_defined (L := L) (P := P) (lim := lim) (o := s.obj) (scratch := scr s.k s.t) (x0 := s.x) hlen h.warmDims
    (hc s.k).factor (hc s.k).lambdaMin (hc s.k).second (hc s.k).limits
  have htr := C11_trajectory (L := L) (P := P) (lim := lim) (o := s.obj) (scratch := scr s.k s.t) (x0 := s.x) hlen h.warmDims
  generalize hq : solve L P lim dt (cfgs s.k) s.obj s.t (scr s.k s.t) s.x s.us = q at hb htr
  obtain ⟨o, r⟩ := q
  dsimp only at hb htr
  subst hb
  rw [h.warmLen] at htr
  obtain ⟨x, u, hx, hu, hx1, -⟩ := htr.step 0 (by omega)
  obtain rfl : x = s.x := Option.some.inj (hx.symm.trans htr.start)
  have hdims : DimsOk md s.t dt o.control.us := by
    intro i hi
    obtain ⟨_, u, _, hu, _⟩ := htr.step i (by rw [← htr.lenU]; exact hi)
    rw [List.getElem?_eq_getElem hi] at hu
    rw [Option.some.inj hu]
  obtain ⟨us', h1, h2, h3, h4⟩ := hs s.t o.control.us htr.lenU hdims
  have hstep : ∃ u, o.control.us[0]? = some ⟨md (t0 + s.k * dt), u⟩ ∧
      o.control.xs[1]? = some (P.stateEq (t0 + s.k * dt) s.x u) := by
    have h0 : s.t + lit ((0 : ℕ) : ℚ) * dt = t0 + s.k * dt := by simp [h.time]
    exact h0 ▸ ⟨u, hu, hx1⟩
  clear hx1 hu
  clear u
  obtain ⟨u, hu, hx1⟩ := hstep
  obtain ⟨X, U, hX0, hX, hlog, hxk⟩ := h.lines
  refine ⟨{ k := s.k + 1, t := s.t + dt, x := P.stateEq (t0 + s.k * dt) s.x u, us := us', obj := o,
            log := s.log ++ [{ t := s.t, x := s.x, u := ⟨md (t0 + s.k * dt), u⟩ }] }, ?_, rfl, ?_, by simp [h.len], ?_, h2, h3, fun _ => h4⟩
  · unfold mpcStep
    rw [if_pos (by simpa using ht), hq]
    simp only [hx, hu, h1, hx1]
  · simp only [h.time]; push_cast; ring
  · refine ⟨fun k => if k ≤ s.k then X k else P.stateEq (t0 + s.k * dt) s.x u,
      fun k => if hk : k = s.k then hk ▸ u else U k, by simp [hX0], ?_, ?_, ?_⟩
    · intro k hk
      dsimp only at hk ⊢
      rcases Nat.lt_succ_iff_lt_or_eq.1 hk with h' | h'
      · rw [if_pos (by omega), if_pos (by omega), dif_neg (by omega), hX k h']
      · subst h'
        rw [if_neg (by omega), if_pos le_rfl, dif_pos rfl, hxk]
    · intro k hk
      dsimp only at hk ⊢
      rcases Nat.lt_succ_iff_lt_or_eq.1 hk with h' | h'
      · rw [List.getElem?_append_left (by rw [h.len]; exact h'), hlog k h', if_pos (by omega), dif_neg (by omega)]
      · subst h'
        rw [List.getElem?_append_right (by rw [h.len]), h.len, if_pos le_rfl, dif_pos rfl, ← hxk, h.time]
        simp
    · simp

/-- **C67** The receding-horizon loop with a positive step and a valid first warm start ends normally after
`⌈(end_t - t0) / dt⌉` rounds (none if `end_t ≤ t0`): no exception, no undefined access, in no round, whatever the problem and the
factorisations are.  The states visited follow the state equation under the first input of each plan, at the times `t0 + k dt`.  Every warm start agrees with the plan before it on the steps both cover. -/
theorem C67_loop (hdt : 0 < dt) (hN : 1 ≤ N) (hs : ShiftOk md dt N shift) (hc : ∀ k, RoundOk lim N (cfgs k))
    (hlen : us.length = N) (hd : DimsOk md t0 dt us) :
    ∃ s, mpcLoop L P lim dt cfgs scr shift endT o t0 x0 us = .ok s ∧ s.k = ⌈(endT - t0) / dt⌉₊ ∧ ClosedLoop P dt t0 x0 N s := by
  have h0 : ClosedLoop P dt t0 x0 N { k := 0, t := t0, x := x0, us := us, obj := o, log := [] } :=
    ⟨by simp, rfl, ⟨fun _ => x0, fun _ _ => 0, rfl, by simp, by simp, rfl⟩, hlen, hd, by simp⟩
  have key : ∀ j (s : Mpc n ℝ), ClosedLoop P dt t0 x0 N s → s.k + j = ⌈(endT - t0) / dt⌉₊ →
      ∃ s', loopR (mpcStep L P lim dt cfgs scr shift endT) s = .ok s' ∧ s'.k = ⌈(endT - t0) / dt⌉₊ ∧ ClosedLoop P dt t0 x0 N s' := by
    intro j
    induction j with
    | zero =>
      intro s hs' hk
      refine ⟨s, ?_, hk, hs'⟩
      have hle : (endT - t0) / dt ≤ s.k := by
        rw [add_zero] at hk; rw [hk]; exact Nat.le_ceil _
      rw [div_le_iff₀ hdt] at hle
      have : loopM (mpcStep L P lim dt cfgs scr shift endT) s = some (.ok s) := by
        apply loopM_inr
        unfold mpcStep
        rw [if_neg]
        rw [ltb_real, hs'.time]
        linarith
      unfold loopR
      rw [this]
    | succ j ih =>
      intro s hs' hk
      have hlt : (s.k : ℝ) < (endT - t0) / dt := Nat.lt_ceil.1 (by omega)
      rw [lt_div_iff₀ hdt] at hlt
      obtain ⟨s', h1, h2, h3⟩ := mpcStep_ok (L := L) (scr := scr) (endT := endT) hN hs hc hs' (by rw [hs'.time]; linarith)
      obtain ⟨s'', h4, h5⟩ := ih s' h3 (by omega)
      refine ⟨s'', ?_, h5⟩
      rw [← h4]
      unfold loopR
      rw [loopM_inl h1]
  exact key _ _ h0 (Nat.zero_add _)

/-- **C67** for the vertical and centroidal motion examples (input dimension varies with time). -/
theorem C67_varying (hdt : 0 < dt) (hN : 2 ≤ N) (hc : ∀ k, RoundOk lim N (cfgs k)) (hlen : us.length = N) (hd : DimsOk md t0 dt us) :
    ∃ s, mpcLoop L P lim dt cfgs scr (fun t => shiftDim (md (t + lit (N : ℚ) * dt))) endT o t0 x0 us = .ok s ∧
      s.k = ⌈(endT - t0) / dt⌉₊ ∧ ClosedLoop P dt t0 x0 N s :=
  C67_loop hdt (by omega) (shiftDim_ok hN) hc hlen hd

/-- **C67** for the bipedal example (constant input dimension). -/
theorem C67_constant (hdt : 0 < dt) (hN : 2 ≤ N) (hm : ∀ t t', md t = md t') (hc : ∀ k, RoundOk lim N (cfgs k)) (hlen : us.length = N)
    (hd : DimsOk md t0 dt us) :
    ∃ s, mpcLoop L P lim dt cfgs scr (fun _ => shiftRepeat) endT o t0 x0 us = .ok s ∧
      s.k = ⌈(endT - t0) / dt⌉₊ ∧ ClosedLoop P dt t0 x0 N s :=
  C67_loop hdt (by omega) (shiftRepeat_ok hN hm) hc hlen hd

/-- **C67** A horizon of one step (or none) makes the loops undefined: after `erase` there is no last input to repeat. -/
theorem C67_short_horizon (hN : N < 2) (h0 : t0 < endT) (hc : RoundOk lim N (cfgs 0)) (hlen : us.length = N) (hd : DimsOk md t0 dt us) :
    mpcLoop L P lim dt cfgs scr (fun _ => shiftRepeat) endT o t0 x0 us = .ub ∧
    mpcLoop L P lim dt cfgs scr (fun t => shiftDim (md (t + lit (N : ℚ) * dt))) endT o t0 x0 us = .ub := by
  have hlen' : (us.length : ℤ) = (cfgs 0).horizon := by rw [hc.horizon, hlen]
  obtain ⟨b, hb⟩ := C66_defined (L := L) (P := P) (lim := lim) (o := o) (scratch := scr 0 t0) (x0 := x0) hlen' hd
    hc.factor hc.lambdaMin hc.second hc.limits
  have htr := C11_trajectory (L := L) (P := P) (lim := lim) (o := o) (scratch := scr 0 t0) (x0 := x0) hlen' hd
  generalize hq : solve L P lim dt (cfgs 0) o t0 (scr 0 t0) x0 us = q at hb htr
  obtain ⟨o', r⟩ := q
  dsimp only at hb htr
  subst hb
  have hshort : ∀ us : List (Σ k : ℕ, Vec k ℝ), us.length < 2 → ∀ d, shiftRepeat us = .ub ∧ shiftDim d us = .ub := by
    intro us h d
    match us, h with
    | [], _ => exact ⟨rfl, rfl⟩
    | [_], _ => exact ⟨rfl, rfl⟩
  have hu : o'.control.us.length < 2 := by rw [htr.lenU]; omega
  have step : ∀ shift : ℝ → List (Σ k : ℕ, Vec k ℝ) → Res (List (Σ k : ℕ, Vec k ℝ)), shift t0 o'.control.us = .ub →
      mpcLoop L P lim dt cfgs scr shift endT o t0 x0 us = .ub := by
    intro shift h
    have : loopM (mpcStep L P lim dt cfgs scr shift endT) { k := 0, t := t0, x := x0, us := us, obj := o, log := [] } = some .ub := by
      apply loopM_inr
      unfold mpcStep
      rw [if_pos (by simpa using h0)]
      dsimp only
      rw [hq]
      dsimp only
      split
      · rename_i h'
        rw [h] at h'; cases h'
      · rfl
    unfold mpcLoop loopR
    rw [this]
  exact ⟨step _ (hshort _ hu 0).1, step _ (hshort _ hu _).2⟩

end Nmpc.DDP
