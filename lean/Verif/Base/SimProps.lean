import Verif.Base.Sim
import Mathlib.Tactic.IntervalCases

/-!
# C105: the callbacks of the interactive simulations take effect exactly as requested

For any controller: which reference every call of the controller gets, which disturbance acts in every step, which controller state
produces every input.
-/

namespace Nmpc

section Spec
variable {n m : ℕ} {σ : Type}

/-- A request of a target position. -/
def targetReq : Callback ℝ → Option ℝ
  | .target p => some p
  | _ => none

/-- The last position requested, zero without a request. -/
noncomputable def lastTarget (cs : List (Callback ℝ)) : ℝ :=
  match (cs.filterMap targetReq).getLast? with
  | some p => p
  | none => 0

/-- A request of a disturbance after step `j`. -/
def distReq (j : ℕ) : Callback ℝ → Option (ℕ × ℝ)
  | .dist f => some (j, f)
  | _ => none

/-- The requests of disturbances before step `k`, in order. -/
def distReqs (env : ℕ → List (Callback ℝ)) (k : ℕ) : List (ℕ × ℝ) :=
  (List.range k).flatMap fun j => (env j).filterMap (distReq j)

/-- The disturbance expected in step `k`: the last one requested, if the request (at time `(j + 1) simDt`) is not more than half a
second old. -/
noncomputable def disturbance (simDt : ℝ) (env : ℕ → List (Callback ℝ)) (k : ℕ) : ℝ :=
  match (distReqs env k).getLast? with
  | some (j, f) => if k * simDt ≤ (j + 1 : ℕ) * simDt + 1 / 2 then f else 0
  | none => 0

/-- The calls of the controller expected for the callbacks `cs` run at time `t` in state `x` after the callbacks `hist`. -/
noncomputable def stepCalls (hist cs : List (Callback ℝ)) (t : ℝ) (x : Vec n ℝ) : List (ℝ × ℝ × Vec n ℝ) :=
  (List.range cs.length).filterMap fun i =>
    match cs[i]? with
    | some Callback.mpc => some (lastTarget (hist ++ cs.take i), t, x)
    | _ => none

/-- The calls of the controller expected before step `k` if the states are `X`. -/
noncomputable def simCalls (simDt : ℝ) (env : ℕ → List (Callback ℝ)) (X : ℕ → Vec n ℝ) (k : ℕ) : List (ℝ × ℝ × Vec n ℝ) :=
  (List.range k).flatMap fun j => stepCalls ((List.range j).flatMap env) (env j) ((j + 1 : ℕ) * simDt) (X (j + 1))

/-- The state of the controller after a list of calls. -/
def runCalls (C : Controller n m σ ℝ) : List (ℝ × ℝ × Vec n ℝ) → σ → Res σ
  | [], c => .ok c
  | q :: qs, c => (C.solve q.1 q.2.1 q.2.2 c).bind (runCalls C qs)

/-- Complete specification of a simulation that ended normally. -/
structure SimExact (C : Controller n m σ ℝ) (plant : ℝ → Vec n ℝ → Vec m ℝ → Vec n ℝ) (simDt : ℝ) (env : ℕ → List (Callback ℝ))
    (x0 : Vec n ℝ) (c0 : σ) (s : Sim n m σ ℝ) : Prop where
  time : s.t = s.k * simDt
  len : s.log.length = s.k
  lines : ∃ (X : ℕ → Vec n ℝ) (c : ℕ → σ), X 0 = x0 ∧ s.x = X s.k ∧ s.ctrl = c s.k ∧
    (∀ k, k ≤ s.k → runCalls C (simCalls simDt env X k) c0 = .ok (c k)) ∧
    ∀ k, k < s.k →
      s.log[k]? = some { t := k * simDt, x := X k, u := C.input (c k) (X k), d := fun _ => disturbance simDt env k } ∧
      X (k + 1) = plant (k * simDt) (X k) (C.input (c k) (X k) + fun _ => disturbance simDt env k)

end Spec

variable {n m : ℕ} {σ : Type} {C : Controller n m σ ℝ} {plant : ℝ → Vec n ℝ → Vec m ℝ → Vec n ℝ} {simDt endT : ℝ}
  {env : ℕ → List (Callback ℝ)} {x0 : Vec n ℝ} {c0 : σ}

theorem runCalls_append (qs rs : List (ℝ × ℝ × Vec n ℝ)) (c : σ) :
    runCalls C (qs ++ rs) c = (runCalls C qs c).bind (runCalls C rs) := by
  induction qs generalizing c with
  | nil => rfl
  | cons q qs ih =>
    simp only [List.cons_append, runCalls]
    cases C.solve q.1 q.2.1 q.2.2 c <;> simp [Res.bind, ih]

theorem stepCalls_snoc (hist pre : List (Callback ℝ)) (e : Callback ℝ) (t : ℝ) (x : Vec n ℝ) :
    stepCalls hist (pre ++ [e]) t x = stepCalls hist pre t x ++
      (match e with | .mpc => [(lastTarget (hist ++ pre), t, x)] | _ => []) := by
  unfold stepCalls
  rw [List.length_append, List.length_singleton, List.range_succ, List.filterMap_append]
  congr 1
  · apply List.filterMap_congr
    intro i hi
    have hi := List.mem_range.1 hi
    rw [List.getElem?_append_left hi, List.take_append_of_le_length hi.le]
  · cases e <;> simp [List.take_append]

theorem lastTarget_snoc (hist : List (Callback ℝ)) (e : Callback ℝ) :
    lastTarget (hist ++ [e]) = match e with | .target p => p | _ => lastTarget hist := by
  unfold lastTarget
  rw [List.filterMap_append]
  cases e <;> simp [targetReq]

/-- What is pending after the requests `rs`: `k` is the step done last. -/
def DistState (simDt : ℝ) (k : ℕ) (rs : List (ℕ × ℝ)) (s : Sim n m σ ℝ) : Prop :=
  match rs.getLast? with
  | none => s.distU = 0
  | some (j, f) => s.distT = (j + 1 : ℕ) * simDt + 1 / 2 ∧ (s.distU = (fun _ => f) ∨ s.distU = 0 ∧ s.distT < k * simDt)

theorem spinOnce_exact {j : ℕ} {hist : List (Callback ℝ)} {qs : List (ℝ × ℝ × Vec n ℝ)} {rs : List (ℕ × ℝ)} :
    ∀ (cs pre : List (Callback ℝ)) (s s' : Sim n m σ ℝ), spinOnce C cs s = .ok s' → s.t = (j + 1 : ℕ) * simDt →
      refPos s.target = lastTarget (hist ++ pre) → DistState simDt j (rs ++ pre.filterMap (distReq j)) s →
      runCalls C (qs ++ stepCalls hist pre s.t s.x) c0 = .ok s.ctrl →
      s'.k = s.k ∧ s'.t = s.t ∧ s'.x = s.x ∧ s'.log = s.log ∧ refPos s'.target = lastTarget (hist ++ (pre ++ cs)) ∧
        DistState simDt j (rs ++ (pre ++ cs).filterMap (distReq j)) s' ∧
        runCalls C (qs ++ stepCalls hist (pre ++ cs) s.t s.x) c0 = .ok s'.ctrl
  | [], pre, s, s', h, ht, hr, hd, hc => by
    cases h
    rw [List.append_nil]
    exact ⟨rfl, rfl, rfl, rfl, hr, hd, hc⟩
  | e :: cs, pre, s, s', h, ht, hr, hd, hc => by
    have hpre : pre ++ e :: cs = (pre ++ [e]) ++ cs := by simp
    rw [hpre]
    have hl := lastTarget_snoc (hist ++ pre) e
    rw [List.append_assoc] at hl
    have hst := stepCalls_snoc hist pre e s.t s.x
    have hrs : rs ++ (pre ++ [e]).filterMap (distReq j) =
        (rs ++ pre.filterMap (distReq j)) ++ [e].filterMap (distReq j) := by simp
    cases e with
    | mpc =>
      simp only [spinOnce, runCallback] at h
      cases hs : C.solve (refPos s.target) s.t s.x s.ctrl with
      | ok c' =>
        rw [hs] at h
        refine spinOnce_exact cs (pre ++ [.mpc]) { s with ctrl := c' } s' h ht ?_ ?_ ?_
        · rw [hl]; exact hr
        · rw [hrs]
          simpa [distReq, DistState] using hd
        · rw [show stepCalls hist (pre ++ [.mpc]) s.t s.x = _ from hst, ← List.append_assoc, runCalls_append, hc, Res.bind_ok]
          simp only [runCalls]
          rw [← hr, hs]
          rfl
      | _ => rw [hs] at h; simp [Res.map] at h
    | dist f =>
      refine spinOnce_exact cs (pre ++ [.dist f]) { s with distU := fun _ => f, distT := s.t + lit (1 / 2) } s' h ht ?_ ?_ ?_
      · rw [hl]; exact hr
      · rw [hrs]
        simp [distReq, DistState, ht, lit_real]
      · rw [show stepCalls hist (pre ++ [.dist f]) s.t s.x = _ from hst, List.append_nil]; exact hc
    | target p =>
      refine spinOnce_exact cs (pre ++ [.target p]) { s with target := some p } s' h ht ?_ ?_ ?_
      · rw [hl]; rfl
      · rw [hrs]
        simpa [distReq, DistState] using hd
      · rw [show stepCalls hist (pre ++ [.target p]) s.t s.x = _ from hst, List.append_nil]; exact hc

theorem simCalls_succ (X : ℕ → Vec n ℝ) (k : ℕ) :
    simCalls simDt env X (k + 1) = simCalls simDt env X k ++
      stepCalls ((List.range k).flatMap env) (env k) ((k + 1 : ℕ) * simDt) (X (k + 1)) := by
  simp [simCalls, List.range_succ]

theorem simCalls_congr {X Y : ℕ → Vec n ℝ} {k : ℕ} (h : ∀ i, i ≤ k → X i = Y i) :
    simCalls simDt env X k = simCalls simDt env Y k := by
  unfold simCalls
  simp only [List.flatMap_def]
  congr 1
  refine List.map_congr_left fun j hj => ?_
  rw [h (j + 1) (List.mem_range.1 hj)]

theorem distReqs_succ (k : ℕ) : distReqs env (k + 1) = distReqs env k ++ (env k).filterMap (distReq k) := by
  simp [distReqs, List.range_succ]

/-- The disturbance acting in the next step. -/
theorem DistState.acts (hdt : 0 ≤ simDt) {s : Sim n m σ ℝ} {j : ℕ} (hj : j ≤ s.k) (h : DistState simDt j (distReqs env s.k) s) (ht : s.t = s.k * simDt) :
    (if ltb s.distT s.t then (fun _ => 0) else s.distU) = fun _ => disturbance simDt env s.k := by
  unfold DistState at h
  unfold disturbance
  rw [ht]
  cases hr : (distReqs env s.k).getLast? with
  | none =>
    rw [hr] at h
    dsimp only at h ⊢
    rw [h]
    split <;> rfl
  | some q =>
    obtain ⟨i, f⟩ := q
    rw [hr] at h
    obtain ⟨h1, h2⟩ := h
    dsimp only
    rw [← h1]
    by_cases hlt : s.distT < s.k * simDt
    · rw [if_pos (by simpa using hlt), if_neg (not_le.2 hlt)]
    · rw [if_neg (by simpa using hlt), if_pos (not_lt.1 hlt)]
      rcases h2 with h2 | ⟨-, h2⟩
      · exact h2
      · exact absurd (h2.trans_le (mul_le_mul_of_nonneg_right (by exact_mod_cast hj) hdt)) hlt

/-- The invariant of the simulation loop. -/
def SimInv (C : Controller n m σ ℝ) (plant : ℝ → Vec n ℝ → Vec m ℝ → Vec n ℝ) (simDt : ℝ) (env : ℕ → List (Callback ℝ))
    (x0 : Vec n ℝ) (c0 : σ) (s : Sim n m σ ℝ) : Prop :=
  SimExact C plant simDt env x0 c0 s ∧ refPos s.target = lastTarget ((List.range s.k).flatMap env) ∧
    DistState simDt (s.k - 1) (distReqs env s.k) s

theorem simRound_inv (hdt : 0 ≤ simDt) {s s1 : Sim n m σ ℝ} (h : SimInv C plant simDt env x0 c0 s)
    (hs : simRound C plant simDt endT env s = .inl s1) : SimInv C plant simDt env x0 c0 s1 := by
  obtain ⟨he, hr, hd⟩ := h
  obtain ⟨X, c, hX0, hXk, hck, hruns, hl⟩ := he.lines
  have hact := hd.acts hdt (Nat.sub_le _ _) he.time
  unfold simRound at hs
  split at hs
  swap
  · cases hs
  cases hq : spinOnce C (env s.k) (simOne C plant simDt s) with
  | ok s' =>
    rw [hq] at hs
    cases hs
    have h1 : simOne C plant simDt s = { s with
        k := s.k + 1, t := s.t + simDt, distU := fun _ => disturbance simDt env s.k
        x := plant s.t s.x (C.input s.ctrl s.x + fun _ => disturbance simDt env s.k)
        log := s.log ++ [{ t := s.t, x := s.x, u := C.input s.ctrl s.x, d := fun _ => disturbance simDt env s.k }] } := by
      unfold simOne
      simp only [hact]
    rw [h1] at hq
    set x1 := plant s.t s.x (C.input s.ctrl s.x + fun _ => disturbance simDt env s.k) with hx1
    set Y : ℕ → Vec n ℝ := fun k => if k ≤ s.k then X k else x1 with hY
    have hYX : ∀ i, i ≤ s.k → Y i = X i := fun i hi => by simp [hY, hi]
    have hY1 : Y (s.k + 1) = x1 := by simp [hY]
    have hDS : DistState simDt s.k (distReqs env s.k ++ ([] : List (Callback ℝ)).filterMap (distReq s.k)) { s with
        k := s.k + 1, t := s.t + simDt, distU := fun _ => disturbance simDt env s.k, x := x1
        log := s.log ++ [{ t := s.t, x := s.x, u := C.input s.ctrl s.x, d := fun _ => disturbance simDt env s.k }] } := by
      simp only [List.filterMap_nil, List.append_nil]
      unfold DistState at hd ⊢
      cases hlast : (distReqs env s.k).getLast? with
      | none =>
        dsimp only
        unfold disturbance
        rw [hlast]
        rfl
      | some q =>
        obtain ⟨i, f⟩ := q
        rw [hlast] at hd
        refine ⟨hd.1, ?_⟩
        have hT := hd.1
        dsimp only
        unfold disturbance
        rw [hlast]
        dsimp only
        rw [← hT]
        by_cases hlt : s.distT < s.k * simDt
        · exact .inr ⟨by rw [if_neg (not_le.2 hlt)]; rfl, hlt⟩
        · exact .inl (by rw [if_pos (not_lt.1 hlt)])
    have hstep := spinOnce_exact (j := s.k) (hist := (List.range s.k).flatMap env) (qs := simCalls simDt env Y s.k)
      (rs := distReqs env s.k) (c0 := c0) (env s.k) [] _ s1 hq
      (by dsimp only; rw [he.time]; push_cast; ring) (by simpa using hr) hDS
      (by
        simp only [stepCalls, List.length_nil, List.range_zero, List.filterMap_nil, List.append_nil]
        rw [simCalls_congr hYX, hruns _ le_rfl, hck])
    simp only [List.nil_append] at hstep
    obtain ⟨g1, g2, g3, g4, g5, g6, g7⟩ := hstep
    have ht1 : s.t + simDt = (s.k + 1 : ℕ) * simDt := by rw [he.time]; push_cast; ring
    refine ⟨⟨?_, ?_, Y, fun k => if k ≤ s.k then c k else s1.ctrl, ?_, ?_, ?_, ?_, ?_⟩, ?_, ?_⟩
    · rw [g2, g1, ht1]
    · rw [g4, g1]; simp [he.len]
    · rw [hYX 0 (Nat.zero_le _), hX0]
    · rw [g3, g1, hY1]
    · rw [g1]; dsimp only; rw [if_neg (by omega)]
    · intro k hk
      rw [g1] at hk
      dsimp only at hk ⊢
      rcases Nat.lt_succ_iff_lt_or_eq.1 (Nat.lt_succ_of_le hk) with h' | h'
      · have h' : k ≤ s.k := Nat.lt_succ_iff.1 h'
        rw [if_pos h', simCalls_congr fun i hi => hYX i (hi.trans h')]
        exact hruns k h'
      · subst h'
        rw [if_neg (by omega), simCalls_succ, hY1, ← ht1]
        exact g7
    · intro k hk
      rw [g1] at hk
      rw [g4]
      dsimp only at hk ⊢
      rcases Nat.lt_succ_iff_lt_or_eq.1 hk with h' | h'
      · rw [if_pos h'.le, hYX k h'.le, hYX (k + 1) h']
        refine ⟨?_, (hl k h').2⟩
        rw [← (hl k h').1]
        exact List.getElem?_append_left (by rw [he.len]; exact h')
      · subst h'
        rw [if_pos le_rfl, hYX _ le_rfl, hY1, ← hck, ← hXk, ← he.time]
        refine ⟨?_, rfl⟩
        rw [List.getElem?_append_right (by rw [he.len]), he.len, Nat.sub_self]
        rfl
    · rw [g5, g1, List.range_succ, List.flatMap_append]
      simp
    · rw [g1, distReqs_succ]
      exact g6
  | _ => rw [hq] at hs; cases hs

/-- **C105** Every simulation that ends normally, with any controller, plant, step and callbacks: every call of the controller gets
the time and state of the step and, as reference, the position requested last (zero before the first request); every step applies
the input of the controller state resulting from exactly these calls, plus the disturbance requested last, if the request is not more
than half a second old (no disturbance otherwise). -/
theorem C105_exact (hdt : 0 ≤ simDt) {s : Sim n m σ ℝ} (h : simLoop C plant simDt endT env x0 c0 = .ok s) :
    SimExact C plant simDt env x0 c0 s ∧ endT ≤ s.t := by
  unfold simLoop loopR at h
  have key := fun r => @loopM_invariant _ _ (simRound C plant simDt endT env) (SimInv C plant simDt env x0 c0)
    (fun r => ∀ s, r = .ok s → SimExact C plant simDt env x0 c0 s ∧ endT ≤ s.t)
    (fun s s' hs h => simRound_inv hdt hs h)
    (fun s r hs hr s' hs' => by
      subst hs'
      unfold simRound at hr
      split at hr
      · cases hq : spinOnce C (env s.k) (simOne C plant simDt s) <;> rw [hq] at hr <;> cases hr
      · rename_i hlt
        cases hr
        exact ⟨hs.1, by simpa using hlt⟩)
    { k := 0, t := 0, x := x0, distT := 0, distU := fun _ => 0, target := none, ctrl := c0, log := [] } r
  cases hM : loopM (simRound C plant simDt endT env)
      { k := 0, t := 0, x := x0, distT := 0, distU := fun _ => 0, target := none, ctrl := c0, log := [] } with
  | none => rw [hM] at h; cases h
  | some r =>
    rw [hM] at h
    refine key r ⟨⟨by simp, rfl, fun _ => x0, fun _ => c0, rfl, rfl, rfl, ?_, fun k hk => absurd hk (Nat.not_lt_zero k)⟩, rfl, rfl⟩
      hM s h
    intro k hk
    obtain rfl : k = 0 := Nat.le_zero.1 hk
    rfl

/-- **C105** With a controller that never fails the simulation does end normally, after `⌈end_t / sim_dt⌉` steps, and everything it
does is determined by the callbacks as above. -/
theorem C105_total {I : σ → Prop} (hdt : 0 < simDt) (h0 : I c0) (hsolve : ∀ ref t x c, I c → ∃ c', C.solve ref t x c = .ok c' ∧ I c') :
    ∃ s, simLoop C plant simDt endT env x0 c0 = .ok s ∧ s.k = ⌈endT / simDt⌉₊ ∧ SimExact C plant simDt env x0 c0 s := by
  obtain ⟨s, h1, h2, -, -⟩ := simLoop_ok (plant := plant) (endT := endT) (env := env) (x0 := x0) (U := fun _ _ => True) hdt h0 hsolve
    fun _ _ _ => trivial
  exact ⟨s, h1, h2, (C105_exact hdt.le h1).1⟩

/-- A controller that returns the reference and a step of one quarter: target 3 and disturbance 7 requested after the first step,
target 5 requested after the second step behind the controller call: the inputs are 0, 3, 3, 5 and the disturbance acts in the steps
1, 2, 3 only. -/
example : ∃ s, simLoop (α := ℝ) (n := 1) (m := 1) { solve := fun r _ _ _ => .ok r, input := fun c _ _ => c } (fun _ x u => x + u)
      (1 / 4) (5 / 4) (fun k => if k = 0 then [.target 3, .dist 7, .mpc] else if k = 1 then [.mpc, .target 5] else [.mpc]) 0 (0 : ℝ) =
        .ok s ∧
    s.log.map (fun l => (l.u 0, l.d 0)) = [(0, 0), (3, 7), (3, 7), (5, 7), (5, 0)] := by
  obtain ⟨s, h1, h2, h3⟩ := C105_total (C := { solve := fun r _ _ _ => .ok r, input := fun c _ _ => c }) (n := 1) (m := 1)
    (plant := fun _ x u => x + u) (simDt := 1 / 4) (endT := 5 / 4) (x0 := 0) (c0 := (0 : ℝ)) (I := fun _ => True)
    (env := fun k => if k = 0 then [.target 3, .dist 7, .mpc] else if k = 1 then [.mpc, .target 5] else [.mpc])
    (by norm_num) trivial fun _ _ _ _ _ => ⟨_, rfl, trivial⟩
  refine ⟨s, h1, ?_⟩
  have hk : s.k = 5 := by rw [h2]; norm_num
  obtain ⟨X, c, -, -, -, hr, hl⟩ := h3.lines
  have hlen := h3.len
  rw [hk] at hlen hr hl
  have hc : c 0 = 0 ∧ c 1 = 3 ∧ c 2 = 3 ∧ c 3 = 5 ∧ c 4 = 5 := by
    refine ⟨?_, ?_, ?_, ?_, ?_⟩
    all_goals
      symm
    · simpa [simCalls, stepCalls, runCalls, List.range_succ, lastTarget, targetReq, List.findSome?_cons] using hr 0 (by norm_num)
    · simpa [simCalls, stepCalls, runCalls, List.range_succ, lastTarget, targetReq, List.findSome?_cons] using hr 1 (by norm_num)
    · simpa [simCalls, stepCalls, runCalls, List.range_succ, lastTarget, targetReq, List.findSome?_cons] using hr 2 (by norm_num)
    · simpa [simCalls, stepCalls, runCalls, List.range_succ, lastTarget, targetReq, List.findSome?_cons] using hr 3 (by norm_num)
    · simpa [simCalls, stepCalls, runCalls, List.range_succ, lastTarget, targetReq, List.findSome?_cons] using hr 4 (by norm_num)
  apply List.ext_getElem?
  intro i
  rw [List.getElem?_map]
  rcases Nat.lt_or_ge i 5 with hi | hi
  · rw [(hl i hi).1]
    obtain ⟨c0, c1, c2, c3, c4⟩ := hc
    interval_cases i <;> simp [c0, c1, c2, c3, c4, disturbance, distReqs, List.range_succ, distReq, List.findSome?_cons] <;> norm_num
  · rw [List.getElem?_eq_none (by omega), List.getElem?_eq_none (by simpa using hi)]
    rfl

end Nmpc
