import Verif.Float.Ddp
import Verif.Float.Binary
import Verif.DDP.Witness

/-!
# BoxQP and DDP in floating-point arithmetic (C94)

Termination, monotonicity of the cost and the range of the regularisation under rounding.
-/

set_option linter.unusedSectionVars false

namespace Nmpc.BoxQP

variable {α : Type} [Add α] [Sub α] [Mul α] [Div α] [Neg α] [Zero α] [One α] [FOps α] {u : ℝ}

/-- **C94**, BoxQP: in every arithmetic of the standard model, `max_iter ≥ 1`, `min_step > 0` and
`|step_factor| (1 + u) < 1` suffice for termination, for every problem, guess and factorisation. -/
theorem C94_boxqp_terminates (F : FloatLaws α u) {n : ℕ} {L : LLT α} {c : Config α} {o : Obj n α} {a : Args n α}
    {f m : ℝ} (hmax : 1 ≤ c.maxIter) (hf : F.val c.stepFactor = .fin f) (h1 : |f| * (1 + u) < 1)
    (hm : F.val c.minStep = .fin m) (m0 : 0 < m) :
    ∃ r, solve L c o a = .ok r ∧ (r.iter : ℤ) ≤ c.maxIter :=
  C03_terminates hmax (step_small_float F c hf h1 hm m0)

/-- The default configuration meets the hypotheses in doubles. -/
example {n : ℕ} (L : LLT (Bin 53)) (o : Obj n (Bin 53)) (a : Args n (Bin 53)) :
    ∃ r, solve L Config.default o a = .ok r ∧ (r.iter : ℤ) ≤ 500 :=
  C03_terminates (by simp [Config.default]) (default_small_float (floatLaws_bin 53) (by norm_num))

end Nmpc.BoxQP

namespace Nmpc.DDP

variable {α : Type} [Add α] [Sub α] [Mul α] [Div α] [Neg α] [Zero α] [One α] [FOps α] {u : ℝ}
  {n : ℕ} {m : ℕ → ℕ} {L : LLT α} {N : ℕ} {cfg : Config α} {S : Stages n m α}

/-- Numbers with a non-negative coefficient and a positive scaling factor. -/
def PosReg (F : FloatLaws α u) (lambda dlambda : α) : Prop :=
  ∃ l d, F.val lambda = .fin l ∧ F.val dlambda = .fin d ∧ 0 ≤ l ∧ 0 < d

/-- A condition on coefficient and factor that the updates of the regularisation keep. -/
structure RegClosed (n : ℕ) (m : ℕ → ℕ) (cfg : Config α) (G : α → α → Prop) : Prop where
  inc : ∀ s : Solver n m α, G s.lambda s.dlambda → G (s.increase cfg).lambda (s.increase cfg).dlambda
  dec : ∀ s : Solver n m α, G s.lambda s.dlambda → G (s.decrease cfg).lambda (s.decrease cfg).dlambda

/-- A decrease does not exceed the upper limit. -/
def DecLe (n : ℕ) (m : ℕ → ℕ) (cfg : Config α) (G : α → α → Prop) : Prop :=
  ∀ s : Solver n m α, G s.lambda s.dlambda → ltb cfg.lambdaMax s.lambda = false →
    ltb cfg.lambdaMax (s.decrease cfg).lambda = false

theorem bwSearch_closed {G : α → α → Prop} (hG : RegClosed n m cfg G) {s : Solver n m α} (hs : G s.lambda s.dlambda) :
    G (bwSearch L N cfg S s).1.lambda (bwSearch L N cfg S s).1.dlambda ∧
      (ltb cfg.lambdaMax s.lambda = false → (bwSearch L N cfg S s).2 = .ok true →
        ltb cfg.lambdaMax (bwSearch L N cfg S s).1.lambda = false) := by
  refine bwSearch_rule
    (fun s' => G s'.lambda s'.dlambda ∧ (ltb cfg.lambdaMax s.lambda = false → ltb cfg.lambdaMax s'.lambda = false))
    (fun r => G r.1.lambda r.1.dlambda ∧
      (ltb cfg.lambdaMax s.lambda = false → r.2 = .ok true → ltb cfg.lambdaMax r.1.lambda = false)) ⟨hs, fun h => h⟩ ?_ ?_ ?_ ?_ ?_
  · intro s' b h _ hl
    exact ⟨hG.inc _ h.1, fun _ => hl⟩
  · intro s' b h _
    exact ⟨h.1, fun g _ => h.2 g⟩
  · intro s' b h _ hl
    exact ⟨hG.inc _ h.1, by simp⟩
  · intro s' e h he _
    exact ⟨h.1, fun g _ => h.2 g⟩
  · intro _
    exact ⟨hs, fun g _ => g⟩

theorem procOnce_closed {G : α → α → Prop} (hG : RegClosed n m cfg G) (iter : ℕ) {s : Solver n m α}
    (hs : G s.lambda s.dlambda) :
    ∃ e, (procOnce L N cfg S iter s).1.trace = s.trace ++ [e] ∧
      (G e.lambda e.dlambda ∨ e.dlambda = 0 ∧ e.lambda = 0 ∧ (procOnce L N cfg S iter s).2 ≠ .ok 0) ∧
      (DecLe n m cfg G → ltb cfg.lambdaMax s.lambda = false → ltb cfg.lambdaMax e.lambda = false ∨ e.lambda = 0 ∨
        (procOnce L N cfg S iter s).2 = .ok (-1)) ∧
      ((procOnce L N cfg S iter s).2 = .ok 0 →
        G (procOnce L N cfg S iter s).1.lambda (procOnce L N cfg S iter s).1.dlambda ∧ G e.lambda e.dlambda ∧
        (DecLe n m cfg G → ltb cfg.lambdaMax s.lambda = false → ltb cfg.lambdaMax e.lambda = false ∧
          ltb cfg.lambdaMax (procOnce L N cfg S iter s).1.lambda = false)) := by
  have hb0 := bwSearch_closed (L := L) (N := N) (S := S) hG (s := startIter N cfg S iter s) hs
  have hfr := bwSearch_frame (L := L) (N := N) (cfg := cfg) (S := S) (startIter N cfg S iter s)
  have := procOnce_out (L := L) (N := N) (cfg := cfg) (S := S) iter s
  generalize procOnce L N cfg S iter s = r at this
  cases this with
  | bwFail s2 hb =>
    rw [hb] at hfr
    exact ⟨Trace.new iter, hfr.2.2, .inr ⟨rfl, rfl, by simp⟩, fun _ _ => .inr (.inl rfl), by simp⟩
  | err s2 e he hb =>
    rw [hb] at hfr
    have h1 : e.map (fun _ => (0 : ℤ)) ≠ .ok 0 := by
      cases e with
      | ok b => exact absurd rfl (he b)
      | _ => simp [Res.map]
    exact ⟨Trace.new iter, hfr.2.2, .inr ⟨rfl, rfl, h1⟩, fun _ _ => .inr (.inl rfl), fun h => absurd h h1⟩
  | small s2 hb hk hl =>
    exact ⟨{ Trace.new iter with kRelNorm := kRelNorm N s2 }, rfl, .inr ⟨rfl, rfl, by simp⟩, fun _ _ => .inr (.inl rfl), by simp⟩
  | full s2 hb hk =>
    rw [hb] at hfr hb0
    dsimp only at hb0 hfr
    obtain ⟨h1, h2⟩ := hb0
    have := finishStep_out (N := N) (cfg := cfg) s.trace
      { Trace.new iter with
        kRelNorm := kRelNorm N s2, alpha := (lineSearch N cfg S s2).alpha, actual := (lineSearch N cfg S s2).actual,
        expected := (lineSearch N cfg S s2).expected, ratio := (lineSearch N cfg S s2).ratio } (lineSearch N cfg S s2) s2
    generalize finishStep N cfg s.trace _ (lineSearch N cfg S s2) s2 = r at this
    cases this with
    | accept hw s3 h3' =>
      subst h3'
      have hd := hG.dec { s2 with ctrl := (lineSearch N cfg S s2).cand } h1
      have hl : DecLe n m cfg G → _ := fun hD => hD { s2 with ctrl := (lineSearch N cfg S s2).cand } h1
      exact ⟨_, rfl, .inl hd, fun hD h => .inl (hl hD (h2 h rfl)),
        fun _ => ⟨hd, hd, fun hD h => ⟨hl hD (h2 h rfl), hl hD (h2 h rfl)⟩⟩⟩
    | reject hw s3 h3' =>
      subst h3'
      have hi := hG.inc s2 h1
      refine ⟨_, rfl, .inl hi, ?_, ?_⟩
      · intro _ _
        by_cases hl : ltb cfg.lambdaMax (s2.increase cfg).lambda = true
        · right; right; simp [hl]
        · left; simpa using hl
      · intro h0
        by_cases hl : ltb cfg.lambdaMax (s2.increase cfg).lambda = true
        · exfalso; simp [hl] at h0
        · exact ⟨hi, hi, fun _ _ => ⟨by simpa using hl, by simpa using hl⟩⟩

section Closed
variable {F : FloatLaws α u} (R : RegParams F cfg) (hu : u ≤ 1 / 2048)
include R hu

theorem closed_fin : RegClosed n m cfg (fun l d => (∃ x, F.val l = .fin x) ∧ ∃ y, F.val d = .fin y) where
  inc s h := by
    obtain ⟨l, d, h1, h2, _⟩ := increase_float R hu (s := s) h
    exact ⟨⟨l, h1⟩, ⟨d, h2⟩⟩
  dec s h := by
    obtain ⟨⟨x, hx⟩, ⟨y, hy⟩⟩ := h
    obtain ⟨l, d, h1, h2, _⟩ := decrease_float R hu hx hy
    exact ⟨⟨l, h1⟩, ⟨d, h2⟩⟩

theorem closed_pos : RegClosed n m cfg (PosReg F) where
  inc s h := by
    obtain ⟨x, y, hx, hy, x0, y0⟩ := h
    obtain ⟨l, d, h1, h2, h3, h4, _⟩ := increase_float R hu (s := s) ⟨⟨x, hx⟩, ⟨y, hy⟩⟩
    exact ⟨l, d, h1, h2, le_trans R.lo0.le h3, lt_of_lt_of_le (by linarith [(R.f_gt hu).2.1]) h4⟩
  dec s h := by
    obtain ⟨x, y, hx, hy, x0, y0⟩ := h
    obtain ⟨l, d, h1, h2, h3, h4⟩ := decrease_float R hu hx hy
    exact ⟨l, d, h1, h2, (h4 y0 x0).1, h3 y0⟩

theorem decLe_pos : DecLe n m cfg (PosReg F) := by
  intro s h hl
  obtain ⟨x, y, hx, hy, x0, y0⟩ := h
  obtain ⟨l, d, h1, h2, h3, h4⟩ := decrease_float R hu hx hy
  rw [← Bool.not_eq_true, F.ltb_fin R.hhi hx, not_lt] at hl
  rw [← Bool.not_eq_true, F.ltb_fin R.hhi h1, not_lt]
  exact (h4 y0 x0).2.trans hl

end Closed

section Solve
variable {md : α → ℕ} {P : Callbacks n md} {lim : Option ((t : α) → Vec (md t) α × Vec (md t) α)}
  {dt t0 : α} {o : Obj n α} {x0 : Vec n α} {us : List (Σ k : ℕ, Vec k α)}
  {scratch : Scratch n (fun i => md (timeAt t0 dt i)) α} {F : FloatLaws α u}

/-- What holds in every iteration that is reached. -/
theorem reaches_closed {G : α → α → Prop} (hG : RegClosed n (fun i => md (timeAt t0 dt i)) cfg G)
    (h0 : G cfg.initialLambda cfg.initialDlambda) {j : ℕ} {s : Solver n (fun i => md (timeAt t0 dt i)) α}
    (h : Reaches L us.length cfg (stagesOf P lim t0 dt us.length) (start P lim dt cfg t0 scratch x0 us) j s) :
    G s.lambda s.dlambda ∧ s.trace ≠ [] ∧ (∀ e ∈ s.trace, G e.lambda e.dlambda) ∧
      (DecLe n (fun i => md (timeAt t0 dt i)) cfg G → ltb cfg.lambdaMax cfg.initialLambda = false →
        ltb cfg.lambdaMax s.lambda = false ∧ ∀ e ∈ s.trace, ltb cfg.lambdaMax e.lambda = false) := by
  induction h with
  | start =>
    refine ⟨h0, by simp [initSolver], ?_, fun _ hl => ⟨hl, ?_⟩⟩
    · intro e he; rw [List.mem_singleton.1 he]; exact h0
    · intro e he; rw [List.mem_singleton.1 he]; exact hl
  | @next k s s' h1 h2 ih =>
    obtain ⟨i1, i2, i3, i4⟩ := ih
    obtain ⟨e, h3, _, _, h4⟩ := procOnce_closed (L := L) (N := us.length) (S := stagesOf P lim t0 dt us.length) hG k i1
    rw [h2] at h3 h4
    obtain ⟨g1, g2, g3⟩ := h4 rfl
    dsimp only at h3 g1 g3
    refine ⟨g1, by rw [h3]; simp, ?_, ?_⟩
    · intro e' he'
      rw [h3] at he'
      rcases List.mem_append.1 he' with he' | he'
      · exact i3 e' he'
      · rw [List.mem_singleton.1 he']; exact g2
    · intro hD hl
      obtain ⟨j1, j2⟩ := i4 hD hl
      obtain ⟨k1, k2⟩ := g3 hD j1
      refine ⟨k2, ?_⟩
      intro e' he'
      rw [h3] at he'
      rcases List.mem_append.1 he' with he' | he'
      · exact j2 e' he'
      · rw [List.mem_singleton.1 he']; exact k1

/-- **C94**, DDP termination: in every arithmetic of the standard model with unit roundoff up to 2^-11, if
`lambda_factor (1 - u) > (1 + u)^2`, `lambda_min > 0`, and `lambda_max`, `initial_lambda` and `initial_dlambda` are finite
numbers, then `solve` terminates for every problem (with input limits or not) and whatever the factorisations do. -/
theorem C94_ddp_terminates (R : RegParams F cfg) (hu : u ≤ 1 / 2048) {l d : ℝ} (hl : F.val cfg.initialLambda = .fin l)
    (hd0 : F.val cfg.initialDlambda = .fin d) :
    (solve L P lim dt cfg o t0 scratch x0 us).2 ≠ .diverge := by
  by_cases hN : (us.length : ℤ) = cfg.horizon
  swap
  · rw [solve_invalid_length hN]; simp
  by_cases hd : DimsOk md t0 dt us
  swap
  · rw [solve_invalid_dims hN hd]; simp
  rw [solve_valid hN hd]
  dsimp only
  have hstep : ∀ j s, Reaches L us.length cfg (stagesOf P lim t0 dt us.length) (start P lim dt cfg t0 scratch x0 us) j s →
      (procOnce L us.length cfg (stagesOf P lim t0 dt us.length) j s).2 ≠ .diverge := by
    intro j s hr hdv
    have hs := (reaches_closed (closed_fin R hu) ⟨⟨l, hl⟩, ⟨d, hd0⟩⟩ hr).1
    have := procOnce_out (L := L) (N := us.length) (cfg := cfg) (S := stagesOf P lim t0 dt us.length) j s
    generalize procOnce L us.length cfg (stagesOf P lim t0 dt us.length) j s = r at this hdv
    cases this with
    | bwFail => cases hdv
    | err s2 e he hb =>
      have h' := bwSearch_float (L := L) (N := us.length) (S := stagesOf P lim t0 dt us.length) R hu
        (s := startIter us.length cfg (stagesOf P lim t0 dt us.length) j s) hs
      rw [hb] at h'
      dsimp only at hdv h'
      cases e <;> simp_all [Res.map]
    | small => cases hdv
    | full s2 hb hk => cases hdv
  have key : (final L P lim dt cfg t0 scratch x0 us).2 ≠ .diverge := by
    rcases optLoop_reaches (L := L) (N := us.length) (cfg := cfg) (S := stagesOf P lim t0 dt us.length)
      cfg.maxIter.toNat 1 (Reaches.start (s0 := start P lim dt cfg t0 scratch x0 us)) with
      ⟨hr, h1⟩ | ⟨j, s', h1, h2, h3, h4, h5⟩
    · rw [final, hr]; simp
    · rw [final, ← h4]; exact hstep _ _ h3
  cases hq : (final L P lim dt cfg t0 scratch x0 us).2 <;> simp_all [Res.map]

/-- **C94**, DDP regularisation: if moreover `initial_lambda ≥ 0`, `initial_dlambda > 0` and `initial_lambda` does not
exceed `lambda_max`, then in every trace entry but the last the coefficient is a number in `[0, lambda_max]` and the
scaling factor a positive number; in the last entry the same holds, except that both are zero if the iteration was cut
short, and that the coefficient may exceed `lambda_max` if `solve` returns `false`. -/
theorem C94_ddp_range (R : RegParams F cfg) (hu : u ≤ 1 / 2048) (h0 : PosReg F cfg.initialLambda cfg.initialDlambda)
    (hle : ltb cfg.lambdaMax cfg.initialLambda = false)
    (hN : (us.length : ℤ) = cfg.horizon) (hd : DimsOk md t0 dt us) :
    ∃ es e, (solve L P lim dt cfg o t0 scratch x0 us).1.trace = es ++ [e] ∧
      (∀ e' ∈ es, ∃ l d, F.val e'.lambda = .fin l ∧ F.val e'.dlambda = .fin d ∧ 0 ≤ l ∧ l ≤ R.hi ∧ 0 < d) ∧
      (e.dlambda = 0 ∧ e.lambda = 0 ∨
        ∃ l d, F.val e.lambda = .fin l ∧ F.val e.dlambda = .fin d ∧ 0 ≤ l ∧ 0 < d ∧
          (l ≤ R.hi ∨ (solve L P lim dt cfg o t0 scratch x0 us).2 = .ok false)) := by
  rw [solve_valid hN hd]
  dsimp only
  have good : ∀ {e' : Trace α}, PosReg F e'.lambda e'.dlambda → ltb cfg.lambdaMax e'.lambda = false →
      ∃ l d, F.val e'.lambda = .fin l ∧ F.val e'.dlambda = .fin d ∧ 0 ≤ l ∧ l ≤ R.hi ∧ 0 < d := by
    rintro e' ⟨l, d, h1, h2, h3, h4⟩ h5
    rw [← Bool.not_eq_true, F.ltb_fin R.hhi h1, not_lt] at h5
    exact ⟨l, d, h1, h2, h3, h5, h4⟩
  rcases optLoop_reaches (L := L) (N := us.length) (cfg := cfg) (S := stagesOf P lim t0 dt us.length)
    cfg.maxIter.toNat 1 (Reaches.start (s0 := start P lim dt cfg t0 scratch x0 us)) with
    ⟨hr, h1⟩ | ⟨j, s', h1, h2, h3, h4, h5⟩
  · obtain ⟨_, g2, g3, g4⟩ := reaches_closed (closed_pos R hu) h0 h1
    obtain ⟨_, g5⟩ := g4 (decLe_pos R hu) hle
    refine ⟨_, _, (List.dropLast_append_getLast g2).symm, ?_, .inr ?_⟩
    · intro e' he'
      have := List.dropLast_subset _ he'
      exact good (g3 e' this) (g5 e' this)
    · have := List.getLast_mem g2
      obtain ⟨l, d, k1, k2, k3, k4, k5⟩ := good (g3 _ this) (g5 _ this)
      exact ⟨l, d, k1, k2, k3, k5, .inl k4⟩
  · obtain ⟨g1, g2, g3, g4⟩ := reaches_closed (closed_pos R hu) h0 h3
    obtain ⟨g5, g6⟩ := g4 (decLe_pos R hu) hle
    obtain ⟨e, k1, k2, k3, _⟩ :=
      procOnce_closed (L := L) (N := us.length) (S := stagesOf P lim t0 dt us.length) (closed_pos R hu) j g1
    rw [final, ← h4]
    refine ⟨s'.trace, e, k1, fun e' he' => good (g3 e' he') (g6 e' he'), ?_⟩
    rcases k2 with k2 | k2
    · right
      obtain ⟨l, d, q1, q2, q3, q4⟩ := k2
      refine ⟨l, d, q1, q2, q3, q4, ?_⟩
      rcases k3 (decLe_pos R hu) g5 with k | k | k
      · left
        rw [← Bool.not_eq_true, F.ltb_fin R.hhi q1, not_lt] at k
        exact k
      · left
        rw [k, F.zero] at q1
        cases q1
        have h0' := h0
        obtain ⟨l, d, r1, _, r3, _⟩ := h0
        rw [← Bool.not_eq_true, F.ltb_fin R.hhi r1, not_lt] at hle
        exact r3.trans hle
      · right; rw [k]; rfl
    · exact .inl ⟨k2.1, k2.2.1⟩

/-- **C94**, DDP cost: in every arithmetic of the standard model with unit roundoff below 1, the total cost of a trace
entry (a sum in the order of the horizon, as computed) is not larger than that of the entry before, unless the recorded
expected update is zero. -/
theorem C94_ddp_cost (F : FloatLaws α u) (hu : u < 1) (ht : leb 0 cfg.costUpdateRatioThre = true)
    (hN : (us.length : ℤ) = cfg.horizon) (hd : DimsOk md t0 dt us) (i : ℕ) (e e' : Trace α)
    (he : (solve L P lim dt cfg o t0 scratch x0 us).1.trace[i]? = some e)
    (he' : (solve L P lim dt cfg o t0 scratch x0 us).1.trace[i + 1]? = some e') (hz : eqb e'.expected 0 = false) :
    e'.cost = e.cost ∨ leb e'.cost e.cost = true :=
  C13_trace (F.ordLaws hu) ht hN hd i e e' he he' hz

end Solve

/-- The default configuration in doubles meets the hypotheses. -/
noncomputable def doubleReg (alphas : List (Bin 53)) (maxIter horizon : ℤ) :
    RegParams (floatLaws_bin 53) (defaultConfig alphas maxIter horizon) where
  f := rnd 53 (16 / 10)
  lo := rnd 53 (1 / 10 ^ 6)
  hi := rnd 53 (10 ^ 10)
  hf := rfl
  hlo := rfl
  hhi := rfl
  f1 := by
    have h : rnd 53 (16 / 10) = 3602879701896397 / 2251799813685248 := by decide +kernel
    rw [h]; norm_num
  lo0 := by
    have h : 0 < rnd 53 (1 / 10 ^ 6) := by decide +kernel
    exact_mod_cast h

/-- With the default configuration DDP terminates in doubles, and the regularisation stays well formed. -/
example (L : LLT (Bin 53)) (P : Callbacks n (fun _ : Bin 53 => 1)) (o : Obj n (Bin 53)) (x0 : Vec n (Bin 53))
    (lim : Option ((t : Bin 53) → Vec 1 (Bin 53) × Vec 1 (Bin 53)))
    (scratch : Scratch n (fun _ => 1) (Bin 53)) :
    (solve L P lim (lit (1 / 100)) (defaultConfig [1, lit (1 / 2)] 500 1) o 0 scratch x0 [⟨1, fun _ => 0⟩]).2 ≠ .diverge :=
  C94_ddp_terminates (doubleReg _ _ _) (by norm_num) (l := rnd 53 (1 / 10 ^ 4)) rfl (floatLaws_bin 53).one

example : PosReg (floatLaws_bin 53) (defaultConfig (α := Bin 53) [1] 500 1).initialLambda
      (defaultConfig (α := Bin 53) [1] 500 1).initialDlambda ∧
    ltb (defaultConfig (α := Bin 53) [1] 500 1).lambdaMax (defaultConfig (α := Bin 53) [1] 500 1).initialLambda = false := by
  refine ⟨⟨rnd 53 (1 / 10 ^ 4), 1, rfl, (floatLaws_bin 53).one, ?_, one_pos⟩, by decide +kernel⟩
  have h : 0 ≤ rnd 53 (1 / 10 ^ 4) := by decide +kernel
  exact_mod_cast h

end Nmpc.DDP
