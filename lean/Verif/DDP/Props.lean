import Verif.DDP.Generic

/-!
# C11, C12, C14, C25, C26 for `DDPSolver::solve`, any arithmetic
-/

namespace Nmpc.DDP

set_option linter.unusedSectionVars false

variable {α : Type} [Add α] [Sub α] [Mul α] [Div α] [Neg α] [Zero α] [One α] [FOps α]
variable {n : ℕ} {L : LLT α} {cfg : Config α}
variable {md : α → ℕ} {P : Callbacks n md} {lim : Option ((t : α) → Vec (md t) α × Vec (md t) α)}
  {dt t0 : α} {o o' : Obj n α} {x0 : Vec n α} {us : List (Σ k : ℕ, Vec k α)}
  {scratch : Scratch n (fun i => md (timeAt t0 dt i)) α}

/-! ## C11 -/

/-- Specification: the lists `d` are a trajectory of the problem from `x0` over `N` steps with its costs. -/
structure IsTrajectory (P : Callbacks n md) (t0 dt : α) (N : ℕ) (x0 : Vec n α) (d : ControlData n α) : Prop where
  lenX : d.xs.length = N + 1
  lenU : d.us.length = N
  lenC : d.costs.length = N + 1
  start : d.xs[0]? = some x0
  step : ∀ i, i < N → ∃ x u, d.xs[i]? = some x ∧ d.us[i]? = some ⟨md (t0 + lit (i : ℚ) * dt), u⟩ ∧
    d.xs[i + 1]? = some (P.stateEq (t0 + lit (i : ℚ) * dt) x u) ∧
    d.costs[i]? = some (P.runningCost (t0 + lit (i : ℚ) * dt) x u)
  term : ∃ x, d.xs[N]? = some x ∧ d.costs[N]? = some (P.terminalCost (t0 + lit (N : ℚ) * dt) x)

theorem out_isTrajectory {N : ℕ} {c : Ctrl n (fun i => md (timeAt t0 dt i)) α}
    (h : Consistent N (stagesOf P lim t0 dt N) x0 c) : IsTrajectory P t0 dt N x0 (c.out N) where
  lenX := by simp [Ctrl.out]
  lenU := by simp [Ctrl.out]
  lenC := by simp [Ctrl.out]
  start := by simp [Ctrl.out, h.start]
  step i hi := by
    refine ⟨c.x i, c.u i, ?_, ?_, ?_, ?_⟩
    · simp [Ctrl.out, List.getElem?_range (show i < N + 1 by omega)]
    · simp [Ctrl.out, List.getElem?_range hi, timeAt]
    · simp [Ctrl.out, List.getElem?_range (show i + 1 < N + 1 by omega), h.step i hi, stagesOf, timeAt]
    · simp [Ctrl.out, List.getElem?_range (show i < N + 1 by omega), h.run i hi, stagesOf, timeAt]
  term := by
    refine ⟨c.x N, ?_, ?_⟩
    · simp [Ctrl.out]
    · simp [Ctrl.out, h.term, stagesOf, timeAt]

theorem optLoop_consistent {m : ℕ → ℕ} {N : ℕ} {S : Stages n m α} (r k : ℕ) {s : Solver n m α}
    (h : Consistent N S x0 s.ctrl) : Consistent N S x0 (optLoop L N cfg S r k s).1.ctrl := by
  have step : ∀ j s, Consistent N S x0 s.ctrl → Consistent N S x0 (procOnce L N cfg S j s).1.ctrl := by
    intro j s h
    rcases procOnce_ctrl (L := L) (N := N) (cfg := cfg) (S := S) j s with h' | ⟨a, _, g, h'⟩
    · rw [h']; exact h
    · rw [h']; exact forwardPass_consistent h.start
  refine optLoop_rule (fun _ s => Consistent N S x0 s.ctrl) (fun q => Consistent N S x0 q.1.ctrl) r k h ?_ ?_
    (fun s h => h)
  · intro j s s' _ _ hs hp
    have := step j s hs
    rw [hp] at this; exact this
  · intro j s s' e _ _ hs hp _
    have := step j s hs
    rw [hp] at this; exact this

/-- **C11** Whenever the arguments are accepted, `controlData()` after `solve` (also after an exception thrown from
within the optimisation) is a trajectory of the problem starting at the given state, with its costs. -/
theorem C11_trajectory (hN : (us.length : ℤ) = cfg.horizon) (hd : DimsOk md t0 dt us) :
    IsTrajectory P t0 dt us.length x0 (solve L P lim dt cfg o t0 scratch x0 us).1.control := by
  rw [solve_valid hN hd]
  exact out_isTrajectory (optLoop_consistent _ _ (rollout_consistent _ _))

/-! ## C12 -/

/-- **C12** `std::invalid_argument` is thrown exactly for a wrong number of inputs. -/
theorem C12_length : (solve L P lim dt cfg o t0 scratch x0 us).2 = .invalidArgument ↔
    (us.length : ℤ) ≠ cfg.horizon := by
  constructor
  · intro h hN
    by_cases hd : DimsOk md t0 dt us
    · rw [solve_valid hN hd] at h
      rcases optLoop_kind (L := L) (cfg := cfg) cfg.maxIter.toNat 1 (start P lim dt cfg t0 scratch x0 us) with
        ⟨v, h'⟩ | h' | ⟨h', _⟩ | ⟨h', _⟩ <;> rw [final, h'] at h <;> cases h
    · rw [solve_invalid_dims hN hd] at h; cases h
  · intro h; rw [solve_invalid_length h]

/-- **C12** With a correct number of inputs (and without the unsupported second-derivative option),
`std::runtime_error` is thrown exactly if some input has a wrong dimension. -/
theorem C12_dims (hN : (us.length : ℤ) = cfg.horizon) (h2 : cfg.useSecond = false) :
    (solve L P lim dt cfg o t0 scratch x0 us).2 = .runtimeError ↔
      ∃ i, ∃ h : i < us.length, (us[i]).1 ≠ md (t0 + lit (i : ℚ) * dt) := by
  have : (∃ i, ∃ h : i < us.length, (us[i]).1 ≠ md (t0 + lit (i : ℚ) * dt)) ↔ ¬ DimsOk md t0 dt us := by
    simp [DimsOk]
  rw [this]
  constructor
  · intro h hd
    rw [solve_valid hN hd] at h
    rcases optLoop_kind (L := L) (cfg := cfg) cfg.maxIter.toNat 1 (start P lim dt cfg t0 scratch x0 us) with
      ⟨v, h'⟩ | h' | ⟨h', _⟩ | ⟨h', hs⟩
    · rw [final, h'] at h; cases h
    · rw [final, h'] at h; cases h
    · rw [final, h'] at h; cases h
    · rw [h2] at hs; cases hs
  · intro h; rw [solve_invalid_dims hN h]

/-- **C12** A call rejected because of its arguments leaves `controlData()` and `traceDataList()` as they were. -/
theorem C12_unchanged (h : (us.length : ℤ) ≠ cfg.horizon ∨ ¬ DimsOk md t0 dt us) :
    (solve L P lim dt cfg o t0 scratch x0 us).1 = o := by
  by_cases hN : (us.length : ℤ) = cfg.horizon
  · rw [solve_invalid_dims hN (h.resolve_left (not_not.2 hN))]
  · rw [solve_invalid_length hN]

/-! ## C14 -/

theorem procOnce_trace {m : ℕ → ℕ} {N : ℕ} {S : Stages n m α} (iter : ℕ) (s : Solver n m α) :
    ∃ e, (procOnce L N cfg S iter s).1.trace = s.trace ++ [e] ∧ e.iter = iter := by
  have hf := bwSearch_frame (L := L) (N := N) (cfg := cfg) (S := S) (startIter N cfg S iter s)
  have := procOnce_out (L := L) (N := N) (cfg := cfg) (S := S) iter s
  generalize procOnce L N cfg S iter s = r at this
  cases this with
  | bwFail s2 hb => rw [hb] at hf; exact ⟨_, hf.2.2, rfl⟩
  | err s2 e he hb => rw [hb] at hf; exact ⟨_, hf.2.2, rfl⟩
  | small s2 hb hk hl => exact ⟨_, rfl, rfl⟩
  | full s2 hb hk => exact ⟨_, rfl, rfl⟩

theorem optLoop_trace {m : ℕ → ℕ} {N : ℕ} {S : Stages n m α} (r k : ℕ) {s : Solver n m α}
    (h : s.trace.map Trace.iter = List.range k) :
    ∃ j, k ≤ j ∧ j ≤ k + r ∧ (optLoop L N cfg S r k s).1.trace.map Trace.iter = List.range j := by
  have step : ∀ j s, s.trace.map Trace.iter = List.range j →
      (procOnce L N cfg S j s).1.trace.map Trace.iter = List.range (j + 1) := by
    intro j s h
    obtain ⟨e, h1, h2⟩ := procOnce_trace (L := L) (N := N) (cfg := cfg) (S := S) j s
    rw [h1, List.map_append, h, List.range_succ]; simp [h2]
  refine optLoop_rule (fun j s => s.trace.map Trace.iter = List.range j)
    (fun q => ∃ j, k ≤ j ∧ j ≤ k + r ∧ q.1.trace.map Trace.iter = List.range j) r k h ?_ ?_
    (fun s h => ⟨k + r, by omega, le_rfl, h⟩)
  · intro j s s' _ _ hs hp
    have := step j s hs
    rw [hp] at this; exact this
  · intro j s s' e h1 h2 hs hp _
    have := step j s hs
    rw [hp] at this; exact ⟨j + 1, by omega, by omega, this⟩

/-- **C14** The trace has the initial entry and one entry per iteration, numbered 0, 1, 2, …, and there are at most
`max_iter` iterations (none if `max_iter ≤ 0`). -/
theorem C14_iterations (hN : (us.length : ℤ) = cfg.horizon) (hd : DimsOk md t0 dt us) :
    ∃ k : ℕ, k ≤ cfg.maxIter.toNat ∧
      (solve L P lim dt cfg o t0 scratch x0 us).1.trace.map Trace.iter = List.range (k + 1) := by
  rw [solve_valid hN hd]
  obtain ⟨j, h1, h2, h3⟩ := optLoop_trace (L := L) (cfg := cfg) (S := stagesOf P lim t0 dt us.length)
    cfg.maxIter.toNat 1 (s := start P lim dt cfg t0 scratch x0 us) (by
      simp [initSolver, Trace.new, List.range_succ])
  refine ⟨j - 1, by omega, ?_⟩
  rw [show j - 1 + 1 = j by omega]
  exact h3

/-- The iteration `iter` from state `s` ends with "Terminate due to small gradient" (DDPSolver.hpp 223-231). -/
def EndsSmallGradient {m : ℕ → ℕ} (L : LLT α) (N : ℕ) (cfg : Config α) (S : Stages n m α) (iter : ℕ)
    (s : Solver n m α) : Prop :=
  ∃ s2, bwSearch L N cfg S (startIter N cfg S iter s) = (s2, .ok true) ∧
    ltb (kRelNorm N s2) cfg.kRelNormThre = true ∧ ltb s2.lambda cfg.lambdaThre = true

/-- The iteration `iter` from state `s` ends with "Terminate due to small cost update" (DDPSolver.hpp 290-298). -/
def EndsSmallCostUpdate {m : ℕ → ℕ} (L : LLT α) (N : ℕ) (cfg : Config α) (S : Stages n m α) (iter : ℕ)
    (s : Solver n m α) : Prop :=
  ∃ s2, bwSearch L N cfg S (startIter N cfg S iter s) = (s2, .ok true) ∧
    ¬ (ltb (kRelNorm N s2) cfg.kRelNormThre = true ∧ ltb s2.lambda cfg.lambdaThre = true) ∧
    (lineSearch N cfg S s2).success = true ∧ ltb (lineSearch N cfg S s2).actual cfg.costUpdateThre = true

/-- `Reaches … s0 k s`: from `s0` at the start of iteration 1, the solver arrives in state `s` at the start of
iteration `k`, all earlier iterations having asked to continue. -/
inductive Reaches {m : ℕ → ℕ} (L : LLT α) (N : ℕ) (cfg : Config α) (S : Stages n m α) (s0 : Solver n m α) :
    ℕ → Solver n m α → Prop
  | start : Reaches L N cfg S s0 1 s0
  | next {k : ℕ} {s s' : Solver n m α} : Reaches L N cfg S s0 k s → procOnce L N cfg S k s = (s', .ok 0) →
      Reaches L N cfg S s0 (k + 1) s'

theorem Reaches.pos {m : ℕ → ℕ} {N : ℕ} {S : Stages n m α} {s0 s : Solver n m α} {k : ℕ}
    (h : Reaches L N cfg S s0 k s) : 1 ≤ k := by
  induction h with
  | start => exact le_rfl
  | next _ _ ih => omega

theorem procOnce_one_iff {m : ℕ → ℕ} {N : ℕ} {S : Stages n m α} (iter : ℕ) (s : Solver n m α) :
    (procOnce L N cfg S iter s).2 = .ok 1 ↔
      EndsSmallGradient L N cfg S iter s ∨ EndsSmallCostUpdate L N cfg S iter s := by
  have := procOnce_out (L := L) (N := N) (cfg := cfg) (S := S) iter s
  generalize hr : procOnce L N cfg S iter s = r at this
  unfold EndsSmallGradient EndsSmallCostUpdate
  cases this with
  | bwFail s2 hb => rw [hb]; simp
  | err s2 e he hb =>
    rw [hb]
    have h1 : e.map (fun _ => (0 : ℤ)) ≠ .ok 1 := by
      cases e <;> simp [Res.map, Res.bind]
    constructor
    · intro h; exact absurd h h1
    · rintro (⟨q, h, _⟩ | ⟨q, h, _⟩)
      · exact absurd (congrArg Prod.snd h) (he _)
      · exact absurd (congrArg Prod.snd h) (he _)
  | small s2 hb hk hl => rw [hb]; simp [hk, hl]
  | full s2 hb hk =>
    rw [hb]
    have hq := finishStep_out (N := N) (cfg := cfg) s.trace
      { Trace.new iter with
        kRelNorm := kRelNorm N s2
        alpha := (lineSearch N cfg S s2).alpha
        actual := (lineSearch N cfg S s2).actual
        expected := (lineSearch N cfg S s2).expected
        ratio := (lineSearch N cfg S s2).ratio } (lineSearch N cfg S s2) s2
    generalize finishStep N cfg s.trace _ (lineSearch N cfg S s2) s2 = q at hq
    have hnot : ¬ ∃ s3, ((s2, Res.ok true) = ((s3, Res.ok true) : Solver n m α × Res Bool)) ∧
        ltb (kRelNorm N s3) cfg.kRelNormThre = true ∧ ltb s3.lambda cfg.lambdaThre = true := by
      rintro ⟨s3, h, h'⟩; cases h; exact hk h'
    rw [or_iff_right hnot]
    cases hq with
    | accept hs v hv =>
      simp only [Res.ok.injEq, Prod.mk.injEq, and_true]
      constructor
      · intro h1
        refine ⟨s2, rfl, hk, hs, ?_⟩
        by_contra h2; rw [hv, if_neg h2] at h1; cases h1
      · rintro ⟨s3, rfl, _, _, h⟩
        rw [hv, if_pos h]
    | reject hs v hv =>
      simp only [Res.ok.injEq, Prod.mk.injEq, and_true]
      constructor
      · intro h1
        exfalso
        rw [hv] at h1
        split at h1 <;> cases h1
      · rintro ⟨s3, rfl, _, h, _⟩
        rw [hs] at h; cases h

theorem optLoop_reaches {m : ℕ → ℕ} {N : ℕ} {S : Stages n m α} {s0 : Solver n m α} (r k : ℕ) {s : Solver n m α}
    (h : Reaches L N cfg S s0 k s) :
    ((optLoop L N cfg S r k s).2 = .ok 0 ∧ Reaches L N cfg S s0 (k + r) (optLoop L N cfg S r k s).1) ∨
    ∃ j s', k ≤ j ∧ j < k + r ∧ Reaches L N cfg S s0 j s' ∧
      procOnce L N cfg S j s' = optLoop L N cfg S r k s ∧ (optLoop L N cfg S r k s).2 ≠ .ok 0 := by
  refine optLoop_rule (fun j s => Reaches L N cfg S s0 j s) (fun q => (q.2 = .ok 0 ∧ Reaches L N cfg S s0 (k + r) q.1) ∨
    ∃ j s', k ≤ j ∧ j < k + r ∧ Reaches L N cfg S s0 j s' ∧ procOnce L N cfg S j s' = q ∧ q.2 ≠ .ok 0) r k h ?_ ?_ ?_
  · intro j s s' _ _ hs hp; exact .next hs hp
  · intro j s s' e h1 h2 hs hp he
    exact .inr ⟨j, s, h1, h2, hs, hp, he⟩
  · intro s hs; exact .inl ⟨rfl, hs⟩

theorem Reaches.unique {m : ℕ → ℕ} {N : ℕ} {S : Stages n m α} {s0 s s' : Solver n m α} {k : ℕ}
    (h : Reaches L N cfg S s0 k s) (h' : Reaches L N cfg S s0 k s') : s = s' := by
  induction h generalizing s' with
  | start =>
    cases h' with
    | start => rfl
    | next h1 _ => exact absurd h1.pos (by omega)
  | next h1 h2 ih =>
    cases h' with
    | start => exact absurd h1.pos (by omega)
    | next h3 h4 =>
      have := ih h3; subst this
      rw [h2] at h4; cases h4; rfl

theorem Reaches.prefix {m : ℕ → ℕ} {N : ℕ} {S : Stages n m α} {s0 s : Solver n m α} {k j : ℕ}
    (h : Reaches L N cfg S s0 k s) (hj : 1 ≤ j) (hjk : j < k) :
    ∃ s', Reaches L N cfg S s0 j s' ∧ (procOnce L N cfg S j s').2 = .ok 0 := by
  induction h with
  | start => omega
  | @next k s s' h1 h2 ih =>
    by_cases hjk' : j = k
    · subst hjk'; exact ⟨s, h1, by rw [h2]⟩
    · exact ih (by omega)

/-- **C14** `solve` returns `true` exactly when it reaches, within `max_iter` iterations, an iteration that ends with
the small-gradient or the small-cost-update test. -/
theorem C14_true_iff (hN : (us.length : ℤ) = cfg.horizon) (hd : DimsOk md t0 dt us) :
    (solve L P lim dt cfg o t0 scratch x0 us).2 = .ok true ↔
      ∃ (j : ℕ) (s : Solver n (fun i => md (timeAt t0 dt i)) α), (j : ℤ) ≤ cfg.maxIter ∧
        Reaches L us.length cfg (stagesOf P lim t0 dt us.length) (start P lim dt cfg t0 scratch x0 us) j s ∧
        (EndsSmallGradient L us.length cfg (stagesOf P lim t0 dt us.length) j s ∨
         EndsSmallCostUpdate L us.length cfg (stagesOf P lim t0 dt us.length) j s) := by
  rw [solve_valid hN hd]
  have hmap : ((final L P lim dt cfg t0 scratch x0 us).2.map fun v => v == 1) = .ok true ↔
      (final L P lim dt cfg t0 scratch x0 us).2 = .ok 1 := by
    cases (final L P lim dt cfg t0 scratch x0 us).2 <;> simp [Res.map, Res.bind]
  show ((final L P lim dt cfg t0 scratch x0 us).2.map fun v => v == 1) = .ok true ↔ _
  rw [hmap]
  have key := optLoop_reaches (L := L) (N := us.length) (cfg := cfg) (S := stagesOf P lim t0 dt us.length)
    cfg.maxIter.toNat 1 (Reaches.start (s0 := start P lim dt cfg t0 scratch x0 us))
  constructor
  · intro h
    rcases key with ⟨h0, _⟩ | ⟨j, s', h1, h2, h3, h4, h5⟩
    · rw [final, h0] at h; cases h
    · refine ⟨j, s', by omega, h3, ?_⟩
      rw [← procOnce_one_iff, h4]; exact h
  · rintro ⟨j, s, hj, hr, he⟩
    rw [← procOnce_one_iff] at he
    have hp := hr.pos
    rcases key with ⟨h0, h1⟩ | ⟨i, s', h1, h2, h3, h4, h5⟩
    · obtain ⟨s', h2, h3⟩ := h1.prefix hp (by omega)
      have := hr.unique h2; subst this
      rw [h3] at he; cases he
    · rcases lt_trichotomy i j with hij | hij | hij
      · obtain ⟨s'', h6, h7⟩ := hr.prefix h1 hij
        have := h3.unique h6; subst this
        rw [h4] at h7; exact absurd h7 h5
      · subst hij
        have := hr.unique h3; subst this
        rw [final, ← h4]; exact he
      · obtain ⟨s'', h6, h7⟩ := h3.prefix hp hij
        have := hr.unique h6; subst this
        rw [h7] at he; cases he

/-- **C14** In terms of the trace: after `true`, the last entry belongs to an iteration (not the initial entry) and
shows a small relative norm of `k` or an accepted step with a small actual update. -/
theorem C14_true_trace (hN : (us.length : ℤ) = cfg.horizon) (hd : DimsOk md t0 dt us)
    (h : (solve L P lim dt cfg o t0 scratch x0 us).2 = .ok true) :
    ∃ e, (solve L P lim dt cfg o t0 scratch x0 us).1.trace.getLast? = some e ∧ 1 ≤ e.iter ∧
      (ltb e.kRelNorm cfg.kRelNormThre = true ∨
        (ltb cfg.costUpdateRatioThre e.ratio = true ∧ ltb e.actual cfg.costUpdateThre = true)) := by
  rw [solve_valid hN hd] at h ⊢
  have hmap : (final L P lim dt cfg t0 scratch x0 us).2 = .ok 1 := by
    revert h
    show ((final L P lim dt cfg t0 scratch x0 us).2.map fun v => v == 1) = .ok true → _
    cases (final L P lim dt cfg t0 scratch x0 us).2 <;> simp [Res.map, Res.bind]
  rcases optLoop_reaches (L := L) (N := us.length) (cfg := cfg) (S := stagesOf P lim t0 dt us.length)
    cfg.maxIter.toNat 1 (Reaches.start (s0 := start P lim dt cfg t0 scratch x0 us)) with
    ⟨h0, _⟩ | ⟨j, s', h1, h2, h3, h4, h5⟩
  · rw [final, h0] at hmap; cases hmap
  · show ∃ e, (final L P lim dt cfg t0 scratch x0 us).1.trace.getLast? = some e ∧ _
    rw [final, ← h4] at hmap ⊢
    have := procOnce_out (L := L) (N := us.length) (cfg := cfg) (S := stagesOf P lim t0 dt us.length) j s'
    generalize procOnce L us.length cfg (stagesOf P lim t0 dt us.length) j s' = r at this hmap
    cases this with
    | bwFail s2 hb => cases hmap
    | err s2 e he hb =>
      cases e <;> simp [Res.map, Res.bind] at hmap
    | small s2 hb hk hl =>
      refine ⟨_, List.getLast?_concat, h1, .inl hk⟩
    | full s2 hb hk =>
      refine ⟨_, List.getLast?_concat, h1, .inr ?_⟩
      have hq := finishStep_out (N := us.length) (cfg := cfg) s'.trace
        { Trace.new j with
          kRelNorm := kRelNorm us.length s2
          alpha := (lineSearch us.length cfg (stagesOf P lim t0 dt us.length) s2).alpha
          actual := (lineSearch us.length cfg (stagesOf P lim t0 dt us.length) s2).actual
          expected := (lineSearch us.length cfg (stagesOf P lim t0 dt us.length) s2).expected
          ratio := (lineSearch us.length cfg (stagesOf P lim t0 dt us.length) s2).ratio }
        (lineSearch us.length cfg (stagesOf P lim t0 dt us.length) s2) s2
      generalize finishStep us.length cfg s'.trace _ _ s2 = q at hq hmap
      cases hq with
      | accept hs v hv =>
        cases hmap
        obtain ⟨a, _, ha⟩ := lineSearch_success hs
        refine ⟨?_, ?_⟩
        · rw [ha] at hs ⊢; exact hs
        · by_contra hc
          rw [if_neg hc] at hv; cases hv
      | reject hs v hv =>
        cases hmap
        split at hv <;> cases hv

/-! ## C25 -/

theorem bwSearch_second {m : ℕ → ℕ} {N : ℕ} {S : Stages n m α} (h2 : cfg.useSecond = true) (hN : 1 ≤ N)
    (s : Solver n m α) : bwSearch L N cfg S s = (s, .runtimeError) := by
  have hb : backwardPass L N cfg S s = .runtimeError := by
    obtain ⟨k, rfl⟩ : ∃ k, N = k + 1 := ⟨N - 1, by omega⟩
    simp [backwardPass, bwLoop, bwStage, h2, Res.bind]
  unfold bwSearch
  rw [loopM_inr (r := (s, .runtimeError)) (by simp [bwRound, hb])]

/-- **C25** With the second-derivative option, at least one step and at least one iteration, every accepted call
throws `std::runtime_error`, and `controlData()` is then the rollout of the given inputs. -/
theorem C25_second_derivative (h2 : cfg.useSecond = true) (hN : (us.length : ℤ) = cfg.horizon) (hd : DimsOk md t0 dt us)
    (h1 : 1 ≤ cfg.horizon) (hm : 1 ≤ cfg.maxIter) :
    (solve L P lim dt cfg o t0 scratch x0 us).2 = .runtimeError ∧
      (solve L P lim dt cfg o t0 scratch x0 us).1.control.us = us ∧
      IsTrajectory P t0 dt us.length x0 (solve L P lim dt cfg o t0 scratch x0 us).1.control := by
  refine ⟨?_, ?_, C11_trajectory hN hd⟩ <;> rw [solve_valid hN hd]
  all_goals
    obtain ⟨r, hr⟩ : ∃ r, cfg.maxIter.toNat = r + 1 := ⟨cfg.maxIter.toNat - 1, by omega⟩
    have hp : ∀ s, procOnce L us.length cfg (stagesOf P lim t0 dt us.length) 1 s =
        (startIter us.length cfg (stagesOf P lim t0 dt us.length) 1 s, .runtimeError) := by
      intro s
      have := bwSearch_second (L := L) (S := stagesOf P lim t0 dt us.length) h2 (by omega : 1 ≤ us.length)
        (startIter us.length cfg (stagesOf P lim t0 dt us.length) 1 s)
      unfold procOnce
      dsimp only
      unfold startIter at this ⊢
      rw [this]
    have hf : final L P lim dt cfg t0 scratch x0 us =
        (startIter us.length cfg (stagesOf P lim t0 dt us.length) 1 (start P lim dt cfg t0 scratch x0 us),
          .runtimeError) := by
      rw [final, hr, optLoop, hp]
    rw [hf]
  · rfl
  · show (List.range us.length).map _ = us
    apply List.ext_getElem (by simp)
    intro i h1 h2
    simp only [List.getElem_map]
    have hr : (List.range us.length)[i]'(by simpa using h1) = i := by simp
    generalize (List.range us.length)[i]'(by simpa using h1) = j at hr ⊢
    subst hr
    exact inputAt_eq (m := fun i => md (timeAt t0 dt i)) h2 (by rw [hd _ h2]; rfl)

/-! ## C26 -/

/-- Total cost of a cost list (`cost_list.sum()`). -/
def listSum (l : List α) : α := FOps.sum fun i : Fin l.length => l.get i

theorem sum_cast {a b : ℕ} (h : a = b) (f : Fin a → α) (g : Fin b → α) (hfg : ∀ i (h1 : i < a) (h2 : i < b), f ⟨i, h1⟩ = g ⟨i, h2⟩) :
    FOps.sum f = FOps.sum g := by
  subst h
  congr 1
  funext i
  exact hfg i i.2 i.2

theorem listSum_out {m : ℕ → ℕ} (N : ℕ) (c : Ctrl n m α) : listSum (c.out N).costs = totalCost N c := by
  unfold listSum totalCost
  refine sum_cast (by simp [Ctrl.out]) _ _ ?_
  intro i h1 h2
  simp [Ctrl.out]

/-- The entry of an iteration that ran to its end (as opposed to one left through the early returns at
DDPSolver.hpp 204 and 230). -/
def Completed {m : ℕ → ℕ} (L : LLT α) (N : ℕ) (cfg : Config α) (S : Stages n m α) (iter : ℕ)
    (s : Solver n m α) : Prop :=
  ∃ s2, bwSearch L N cfg S (startIter N cfg S iter s) = (s2, .ok true) ∧
    ¬ (ltb (kRelNorm N s2) cfg.kRelNormThre = true ∧ ltb s2.lambda cfg.lambdaThre = true)

theorem completed_cost {m : ℕ → ℕ} {N : ℕ} {S : Stages n m α} {iter : ℕ} {s : Solver n m α}
    (h : Completed L N cfg S iter s) :
    ∃ e, (procOnce L N cfg S iter s).1.trace = s.trace ++ [e] ∧
      e.cost = totalCost N (procOnce L N cfg S iter s).1.ctrl ∧
      e.lambda = (procOnce L N cfg S iter s).1.lambda ∧ e.dlambda = (procOnce L N cfg S iter s).1.dlambda := by
  have := procOnce_out (L := L) (N := N) (cfg := cfg) (S := S) iter s
  obtain ⟨s3, h3, hn⟩ := h
  generalize procOnce L N cfg S iter s = r at this
  cases this with
  | bwFail s2 hb => rw [hb] at h3; cases h3
  | err s2 e he hb => rw [hb] at h3; exact absurd (congrArg Prod.snd h3) (he _)
  | small s2 hb hk hl => rw [hb] at h3; cases h3; exact absurd ⟨hk, hl⟩ hn
  | full s2 hb hk => exact ⟨_, rfl, rfl, rfl, rfl⟩

/-- An iteration that asks to continue has run to its end. -/
theorem completed_of_continue {m : ℕ → ℕ} {N : ℕ} {S : Stages n m α} {iter : ℕ} {s : Solver n m α}
    (h : (procOnce L N cfg S iter s).2 = .ok 0) : Completed L N cfg S iter s := by
  have := procOnce_out (L := L) (N := N) (cfg := cfg) (S := S) iter s
  generalize procOnce L N cfg S iter s = r at this h
  cases this with
  | bwFail s2 hb => cases h
  | err s2 e he hb => cases e <;> simp [Res.map, Res.bind] at h; exact absurd rfl (he _)
  | small s2 hb hk hl => cases h
  | full s2 hb hk => exact ⟨s2, hb, hk⟩

theorem reaches_cost {m : ℕ → ℕ} {N : ℕ} {S : Stages n m α} {s0 s : Solver n m α} {k : ℕ}
    (h0 : ∃ e, s0.trace.getLast? = some e ∧ e.cost = totalCost N s0.ctrl) (h : Reaches L N cfg S s0 k s) :
    ∃ e, s.trace.getLast? = some e ∧ e.cost = totalCost N s.ctrl := by
  cases h with
  | start => exact h0
  | @next k t _ h1 h2 =>
    obtain ⟨e, h3, h4, _⟩ := completed_cost (completed_of_continue (by rw [h2] : (procOnce L N cfg S k t).2 = .ok 0))
    rw [h2] at h3 h4
    exact ⟨e, by rw [h3, List.getLast?_concat], h4⟩

/-- **C26** (partial) The cost of the last trace entry is the total cost of `controlData()` whenever the last
iteration, if any, ran to its end.  Missing from the full claim: iterations that return early (small gradient, or
failure of the regularisation loop) leave the entry's cost at 0, see `C26_fails`. -/
theorem C26_last_cost_partial (hN : (us.length : ℤ) = cfg.horizon) (hd : DimsOk md t0 dt us)
    (hc : ∀ j s, Reaches L us.length cfg (stagesOf P lim t0 dt us.length) (start P lim dt cfg t0 scratch x0 us) j s →
      (j : ℤ) ≤ cfg.maxIter → Completed L us.length cfg (stagesOf P lim t0 dt us.length) j s) :
    ∃ e, (solve L P lim dt cfg o t0 scratch x0 us).1.trace.getLast? = some e ∧
      e.cost = listSum (solve L P lim dt cfg o t0 scratch x0 us).1.control.costs := by
  rw [solve_valid hN hd]
  dsimp only
  rw [listSum_out]
  have h0 : ∃ e, (start P lim dt cfg t0 scratch x0 us).trace.getLast? = some e ∧
      e.cost = totalCost us.length (start P lim dt cfg t0 scratch x0 us).ctrl := ⟨_, rfl, rfl⟩
  rcases optLoop_reaches (L := L) (N := us.length) (cfg := cfg) (S := stagesOf P lim t0 dt us.length)
    cfg.maxIter.toNat 1 (Reaches.start (s0 := start P lim dt cfg t0 scratch x0 us)) with
    ⟨_, h1⟩ | ⟨j, s', h1, h2, h3, h4, h5⟩
  · exact reaches_cost h0 h1
  · obtain ⟨e, h6, h7, _⟩ := completed_cost (hc j s' h3 (by omega))
    rw [final, ← h4]
    exact ⟨e, by rw [h6, List.getLast?_concat], h7⟩

/-- **C26** (partial, in terms of return values) If `solve` returns `false` because the iteration limit was reached,
the last trace entry has the final cost. -/
theorem C26_max_iter_partial (hN : (us.length : ℤ) = cfg.horizon) (hd : DimsOk md t0 dt us)
    (h : (final L P lim dt cfg t0 scratch x0 us).2 = .ok 0) :
    (solve L P lim dt cfg o t0 scratch x0 us).2 = .ok false ∧
    ∃ e, (solve L P lim dt cfg o t0 scratch x0 us).1.trace.getLast? = some e ∧
      e.cost = listSum (solve L P lim dt cfg o t0 scratch x0 us).1.control.costs := by
  rw [solve_valid hN hd]
  refine ⟨by show Res.map _ (final L P lim dt cfg t0 scratch x0 us).2 = _; rw [h]; rfl, ?_⟩
  dsimp only
  rw [listSum_out]
  have h0 : ∃ e, (start P lim dt cfg t0 scratch x0 us).trace.getLast? = some e ∧
      e.cost = totalCost us.length (start P lim dt cfg t0 scratch x0 us).ctrl := ⟨_, rfl, rfl⟩
  rcases optLoop_reaches (L := L) (N := us.length) (cfg := cfg) (S := stagesOf P lim t0 dt us.length)
    cfg.maxIter.toNat 1 (Reaches.start (s0 := start P lim dt cfg t0 scratch x0 us)) with
    ⟨_, h1⟩ | ⟨j, s', h1, h2, h3, h4, h5⟩
  · exact reaches_cost h0 h1
  · exact absurd h h5

/-- **C26** (exact characterisation of what holds, for every outcome) The final cost is recorded either in the last entry
or, if the last iteration was aborted by an early return or an exception, in the entry before it; the entry of
an aborted iteration has cost, coefficients and step size zero (and only its gradient norm may be set). -/
theorem C26_cost_recorded_partial (hN : (us.length : ℤ) = cfg.horizon) (hd : DimsOk md t0 dt us) :
    (∃ e, (solve L P lim dt cfg o t0 scratch x0 us).1.trace.getLast? = some e ∧
      e.cost = listSum (solve L P lim dt cfg o t0 scratch x0 us).1.control.costs) ∨
    (∃ es e k i, (solve L P lim dt cfg o t0 scratch x0 us).1.trace = es ++ [e, { Trace.new i with kRelNorm := k }] ∧
      e.cost = listSum (solve L P lim dt cfg o t0 scratch x0 us).1.control.costs) := by
  rw [solve_valid hN hd]
  dsimp only
  rw [listSum_out]
  have h0 : ∃ e, (start P lim dt cfg t0 scratch x0 us).trace.getLast? = some e ∧
      e.cost = totalCost us.length (start P lim dt cfg t0 scratch x0 us).ctrl := ⟨_, rfl, rfl⟩
  rcases optLoop_reaches (L := L) (N := us.length) (cfg := cfg) (S := stagesOf P lim t0 dt us.length)
    cfg.maxIter.toNat 1 (Reaches.start (s0 := start P lim dt cfg t0 scratch x0 us)) with
    ⟨_, h1⟩ | ⟨j, s', h1, h2, h3, h4, h5⟩
  · exact .inl (reaches_cost h0 h1)
  · rw [final, ← h4]
    obtain ⟨e, h6, h7⟩ := reaches_cost h0 h3
    obtain ⟨es, h8⟩ := List.getLast?_eq_some_iff.1 h6
    have hfr := bwSearch_frame (L := L) (N := us.length) (cfg := cfg) (S := stagesOf P lim t0 dt us.length)
      (startIter us.length cfg (stagesOf P lim t0 dt us.length) j s')
    have := procOnce_out (L := L) (N := us.length) (cfg := cfg) (S := stagesOf P lim t0 dt us.length) j s'
    generalize procOnce L us.length cfg (stagesOf P lim t0 dt us.length) j s' = r at this
    cases this with
    | bwFail s2 hb =>
      rw [hb] at hfr
      refine .inr ⟨es, e, 0, j, ?_, ?_⟩
      · rw [show s2.trace = s'.trace ++ [Trace.new j] from hfr.2.2, h8]; simp [Trace.new]
      · rw [show s2.ctrl = s'.ctrl from hfr.1]; exact h7
    | err s2 e' he hb =>
      rw [hb] at hfr
      refine .inr ⟨es, e, 0, j, ?_, ?_⟩
      · dsimp only; rw [show s2.trace = s'.trace ++ [Trace.new j] from hfr.2.2, h8]; simp [Trace.new]
      · dsimp only; rw [show s2.ctrl = s'.ctrl from hfr.1]; exact h7
    | small s2 hb hk hl =>
      rw [hb] at hfr
      refine .inr ⟨es, e, kRelNorm us.length s2, j, ?_, ?_⟩
      · dsimp only; rw [h8]; simp
      · dsimp only; rw [show s2.ctrl = s'.ctrl from hfr.1]; exact h7
    | full s2 hb hk =>
      exact .inl ⟨_, List.getLast?_concat, rfl⟩

end Nmpc.DDP
