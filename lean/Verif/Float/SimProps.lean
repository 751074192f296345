import Verif.Float.Sim
import Verif.Float.Cgmres

/-!
# The remaining simulation loops under rounding (C96)

The interactive cart-pole simulations of both solvers (steps of 2 ms), the oscillator test (5 ms) and the C/GMRES runs (1 ms).
-/

set_option linter.unusedSectionVars false

namespace Nmpc

variable {α : Type} [Add α] [Sub α] [Mul α] [Div α] [Neg α] [Zero α] [One α] [FOps α] {u : ℝ}

open DDP (timeAt)

/-- A disturbance requested after step `j` acts at most until step `j + 251`: half a second at 2 ms per step. -/
theorem disturbance_float (F : FloatLaws α u) (hu : u ≤ 1 / 2 ^ 45) {j k : ℕ} (hk : k ≤ 5001)
    (h : ltb (acc 0 (lit (2 / 1000) : α) (j + 1) + lit (1 / 2)) (acc 0 (lit (2 / 1000)) k) = false) : k ≤ j + 251 := by
  by_contra hn
  push Not at hn
  have u0 := F.u_nonneg
  have hu2 : u ≤ 3 / 10 ^ 14 := hu.trans (by norm_num)
  have hk' : (k : ℚ) ≤ 5001 := by exact_mod_cast hk
  have hj' : ((j + 1 : ℕ) : ℚ) ≤ 5001 := by exact_mod_cast (by omega : j + 1 ≤ 5001)
  have h1 := acc_float (α := α) F hu (q := 2 / 1000) (by norm_num) (by norm_num) (k := k) (by omega) (by linarith)
  have h2 := acc_float (α := α) F hu (q := 2 / 1000) (by norm_num) (by norm_num) (k := j + 1) (by omega) (by linarith)
  have h3 := h2.add (lit_float (α := α) F hu (c := 1 / 2) (by norm_num) (by norm_num))
  have hj2 : ((j + 1 : ℕ) : ℝ) ≤ 5001 := by exact_mod_cast (by omega : j + 1 ≤ 5001)
  have h4 : F.Within (5 / 10 ^ 8) (((j + 1 : ℕ) : ℝ) * ((2 / 1000 : ℚ) : ℝ) + ((1 / 2 : ℚ) : ℝ))
      (acc 0 (lit (2 / 1000) : α) (j + 1) + lit (1 / 2)) := by
    refine h3.mono ?_
    push_cast
    rw [abs_of_nonneg (by positivity)]
    have : u * (((j : ℝ) + 1) * (2 / 1000) + 1 / 2 + 3 / 10 ^ 8 + 1 / 10 ^ 8) ≤ 3 / 10 ^ 14 * 20 := by
      refine mul_le_mul hu2 ?_ (by positivity) (by norm_num)
      push_cast at hj2
      linarith
    linarith
  have h5 := h4.lt h1 (by
    have : ((j + 252 : ℕ) : ℝ) ≤ k := by exact_mod_cast (by omega : j + 252 ≤ k)
    push_cast at this ⊢
    linarith)
  rw [h5] at h
  cases h

/-- Number of steps of 2 ms until 10 s. -/
theorem steps_float (F : FloatLaws α u) (hu : u ≤ 1 / 2 ^ 45) :
    (∀ k < (if ltb (acc 0 (lit (2 / 1000) : α) 5000) (lit 10) then 5001 else 5000),
      ltb (acc 0 (lit (2 / 1000) : α) k) (lit 10) = true) ∧
    ltb (acc 0 (lit (2 / 1000) : α) (if ltb (acc 0 (lit (2 / 1000) : α) 5000) (lit 10) then 5001 else 5000)) (lit 10) = false := by
  obtain ⟨r1, r2⟩ := rounds_float (α := α) F hu (q := 2 / 1000) (c := 10) (K := 5000) (by norm_num) (by norm_num) (by norm_num)
    (by norm_num) (by norm_num)
  by_cases h : ltb (acc 0 (lit (2 / 1000) : α) 5000) (lit 10) = true
  · rw [if_pos h]
    refine ⟨fun k hk => ?_, r2⟩
    by_cases hk' : k < 5000
    · exact r1 k hk'
    · rw [show k = 5000 by omega, h]
  · rw [if_neg h]
    exact ⟨r1, by simpa using h⟩

/-- Every disturbance in the record was requested at most 251 steps earlier. -/
def BriefDisturbance {n m : ℕ} {σ : Type} (env : ℕ → List (Callback α)) (s : Sim n m σ α) : Prop :=
  ∀ (k : ℕ) (l : SimLine n m α), s.log[k]? = some l →
    (l.d = fun _ => 0) ∨ ∃ j f, j < k ∧ k ≤ j + 251 ∧ Callback.dist f ∈ env j ∧ l.d = fun _ => f

theorem SimTracks.brief (F : FloatLaws α u) (hu : u ≤ 1 / 2 ^ 45) {n m : ℕ} {σ : Type} {plant : α → Vec n α → Vec m α → Vec n α}
    {env : ℕ → List (Callback α)} {U : Vec n α → Vec m α → Prop} {x0 : Vec n α} {s : Sim n m σ α}
    (h : SimTracks plant (lit (2 / 1000)) env U x0 s) (hk : s.k ≤ 5001) : BriefDisturbance env s := by
  intro k l hl
  obtain ⟨X, v, d, -, -, h3⟩ := h.lines
  have hks : k < s.k := by rw [← h.len]; exact (List.getElem?_eq_some_iff.1 hl).1
  obtain ⟨g1, -, -, g4⟩ := h3 k hks
  rw [g1] at hl
  obtain rfl := Option.some.inj hl
  rcases g4 with g | ⟨j, f, g1, g2, g3, g4⟩
  · exact .inl g
  · exact .inr ⟨j, f, g1, disturbance_float F hu (by omega) g4, g2, g3⟩

namespace DDP

/-- **C96**, cart-pole simulation with DDP: 5000 or 5001 steps of 2 ms for every sequence of callbacks, in any rounded arithmetic; no
call of the solver fails; the input is never below the lower or above the upper limit; disturbances end after half a second. -/
theorem C96_cart_pole (F : FloatLaws α u) (hu : u ≤ 1 / 2 ^ 45) {n m N : ℕ} {L : LLT α} {P : α → Callbacks n (fun _ : α => m)}
    {lo hi : Vec m α} {dt : α} {cfg : Config α} (hc : StdReg cfg) (hN : cfg.horizon = N) (hN' : 1 ≤ N)
    (hb : ∀ j, ltb (hi j) (lo j) = false ∧ ltb 0 (lo j) = false ∧ ltb (hi j) 0 = false) (scr : ℕ → Scratch n (fun _ => m) α)
    (plant : α → Vec n α → Vec m α → Vec n α) (env : ℕ → List (Callback α)) (x0 : Vec n α) (o : Obj n α) :
    ∃ s, simLoop (ctrlOf L P (fun _ => (lo, hi)) dt cfg scr) plant (lit (2 / 1000)) (lit 10) env x0 (simCtrlInit m N o) = .ok s ∧
      s.k = (if ltb (acc 0 (lit (2 / 1000) : α) 5000) (lit 10) then 5001 else 5000) ∧
      SimTracks plant (lit (2 / 1000)) env (fun _ v => ∀ j, ltb (v j) (lo j) = false ∧ ltb (hi j) (v j) = false) x0 s ∧
      BriefDisturbance env s := by
  obtain ⟨r1, r2⟩ := steps_float (α := α) F hu
  obtain ⟨s, h1, h2, h3, -⟩ := simLoop_tracks (C := ctrlOf L P (fun _ => (lo, hi)) dt cfg scr) (plant := plant) (env := env)
    (x0 := x0) (c0 := simCtrlInit m N o) (I := CtrlSafe lo hi N)
    (U := fun _ v => ∀ j, ltb (v j) (lo j) = false ∧ ltb (hi j) (v j) = false) r1 r2
    ⟨fun j => (hb j).2, by simp [simCtrlInit], fun q hq => by rw [(List.mem_replicate.1 hq).2]⟩
    (fun ref t x c hI => timerCallback_safe F hN' (fun j => (hb j).1) ref t x c
      (solves_std (md := fun _ => m) (L := L) (P := P ref) (lim := some fun _ => (lo, hi)) (dt := dt) F hu hc (fun _ => rfl) hN t
        (scr c.calls)) hI) (fun c _ hI => hI.bounds)
  exact ⟨s, h1, h2, h3, h3.brief F hu (by rw [h2]; split <;> omega)⟩

/-- **C96**, in double precision: exactly 5000 steps. -/
theorem C96_cart_pole_double {n m N : ℕ} {L : LLT (Bin 53)} {P : Bin 53 → Callbacks n (fun _ : Bin 53 => m)}
    {lo hi : Vec m (Bin 53)} {dt : Bin 53} {cfg : Config (Bin 53)} (hc : StdReg cfg) (hN : cfg.horizon = N) (hN' : 1 ≤ N)
    (hb : ∀ j, ltb (hi j) (lo j) = false ∧ ltb 0 (lo j) = false ∧ ltb (hi j) 0 = false) (scr : ℕ → Scratch n (fun _ => m) (Bin 53))
    (plant : Bin 53 → Vec n (Bin 53) → Vec m (Bin 53) → Vec n (Bin 53)) (env : ℕ → List (Callback (Bin 53))) (x0 : Vec n (Bin 53))
    (o : Obj n (Bin 53)) :
    ∃ s, simLoop (ctrlOf L P (fun _ => (lo, hi)) dt cfg scr) plant (lit (2 / 1000)) (lit 10) env x0 (simCtrlInit m N o) = .ok s ∧
      s.k = 5000 ∧
      SimTracks plant (lit (2 / 1000)) env (fun _ v => ∀ j, ltb (v j) (lo j) = false ∧ ltb (hi j) (v j) = false) x0 s ∧
      BriefDisturbance env s := by
  have h := C96_cart_pole (floatLaws_bin 53) (by norm_num) (L := L) (P := P) (dt := dt) hc hN hN' hb scr plant env x0 o
  have hb : ltb (acc (0 : Bin 53) (lit (2 / 1000)) 5000) (lit 10) = false := by rw [acc_two_thousandths.2]; decide +kernel
  rwa [hb, if_neg (by simp)] at h

/-- The default parameters of the test: horizon of 200 steps, limits ±15 N, `max_iter = 3` (TestDDPCartPole.cpp 268-297). -/
example (L : LLT (Bin 53)) (P : Bin 53 → Callbacks 4 (fun _ : Bin 53 => 1)) (as : List (Bin 53)) (scr : ℕ → Scratch 4 (fun _ => 1) (Bin 53))
    (plant : Bin 53 → Vec 4 (Bin 53) → Vec 1 (Bin 53) → Vec 4 (Bin 53)) (env : ℕ → List (Callback (Bin 53))) (o : Obj 4 (Bin 53)) :
    ∃ s, simLoop (ctrlOf L P (fun _ => (fun _ => lit (-15), fun _ => lit 15)) (lit (1 / 100))
        { defaultConfig as 3 200 with withConstraint := true } scr) plant (lit (2 / 1000)) (lit 10) env (fun _ => 0)
        (simCtrlInit 1 200 o) = .ok s ∧ s.k = 5000 :=
  let ⟨s, h1, h2, _⟩ := C96_cart_pole_double (L := L) (P := P) (lo := fun _ => lit (-15)) (hi := fun _ => lit 15) (dt := lit (1 / 100))
    (cfg := { defaultConfig as 3 200 with withConstraint := true }) (N := 200) ⟨rfl, rfl, rfl, rfl, .inl rfl, rfl⟩ rfl (by norm_num)
    (fun _ => by decide +kernel) scr plant env (fun _ => 0) o
  ⟨s, h1, h2⟩

end DDP

namespace FMPC

/-- **C96**, cart-pole simulation with fast MPC: 5000 or 5001 steps of 2 ms for every sequence of callbacks, in any rounded
arithmetic; no call of the solver throws, diverges or accesses a list out of range; no slack or multiplier of the warm start becomes
`<= 0`; disturbances end after half a second. -/
theorem C96_cart_pole (F : FloatLaws α u) (hu : u ≤ 1 / 2 ^ 45) {n m p : ℕ} {L : GainSolver α}
    {P : α → Callbacks n (fun _ : α => m) (fun _ => p)} {dt : α} {cfg : Config α} (hN : 0 < cfg.horizon) (hm : 0 < cfg.maxIter)
    (hne : NoEmpty cfg.horizon.toNat n (fun _ => p) cfg) (scr : ℕ → Scratch n (fun _ => m) (fun _ => p) α)
    (plant : α → Vec n α → Vec m α → Vec n α) (env : ℕ → List (Callback α)) (x0 xp : Vec n α) (K : Mat m n α) (o : Obj n α) :
    ∃ s, simLoop (ctrlOf L P dt cfg scr) plant (lit (2 / 1000)) (lit 10) env x0 (simCtrlInit m p cfg.horizon.toNat K xp o) = .ok s ∧
      s.k = (if ltb (acc 0 (lit (2 / 1000) : α) 5000) (lit 10) then 5001 else 5000) ∧
      SimTracks plant (lit (2 / 1000)) env (fun _ _ => True) x0 s ∧ BriefDisturbance env s ∧ s.ctrl.var.Safe := by
  obtain ⟨r1, r2⟩ := steps_float (α := α) F hu
  have h1 : leb (1 : α) 0 = false := by
    rw [← Bool.not_eq_true]
    simp only [leb, Bool.or_eq_true, F.ltb_iff, F.eqb_iff, F.one, F.zero]
    rintro (h | h)
    · exact absurd (show (1 : ℝ) < 0 from h) (by norm_num)
    · exact absurd (show (1 : ℝ) = 0 from h) (by norm_num)
  have hw := warmSafe_reset (n := n) (m := m) (p := p) cfg.horizon.toNat (0 : α) 0 0 h1 h1
  rw [show ((cfg.horizon.toNat : ℕ) : ℤ) = cfg.horizon by omega] at hw
  obtain ⟨s, h1, h2, h3, h4⟩ := simLoop_tracks (C := ctrlOf L P dt cfg scr) (plant := plant) (env := env)
    (x0 := x0) (c0 := simCtrlInit m p cfg.horizon.toNat K xp o) (I := fun c => WarmSafe m p cfg.horizon c.var) (U := fun _ _ => True)
    r1 r2 hw (fun ref t x c hI => timerCallback_safe F (hu.trans (by norm_num)) hN hm hne ref t x c hI) (fun _ _ _ => trivial)
  exact ⟨s, h1, h2, h3, h3.brief F hu (by rw [h2]; split <;> omega), h4.safe⟩

/-- **C96**, in double precision: exactly 5000 steps. -/
theorem C96_cart_pole_double {n m p : ℕ} {L : GainSolver (Bin 53)}
    {P : Bin 53 → Callbacks n (fun _ : Bin 53 => m) (fun _ => p)} {dt : Bin 53} {cfg : Config (Bin 53)} (hN : 0 < cfg.horizon)
    (hm : 0 < cfg.maxIter) (hne : NoEmpty cfg.horizon.toNat n (fun _ => p) cfg) (scr : ℕ → Scratch n (fun _ => m) (fun _ => p) (Bin 53))
    (plant : Bin 53 → Vec n (Bin 53) → Vec m (Bin 53) → Vec n (Bin 53)) (env : ℕ → List (Callback (Bin 53))) (x0 xp : Vec n (Bin 53))
    (K : Mat m n (Bin 53)) (o : Obj n (Bin 53)) :
    ∃ s, simLoop (ctrlOf L P dt cfg scr) plant (lit (2 / 1000)) (lit 10) env x0 (simCtrlInit m p cfg.horizon.toNat K xp o) = .ok s ∧
      s.k = 5000 ∧ SimTracks plant (lit (2 / 1000)) env (fun _ _ => True) x0 s ∧ BriefDisturbance env s ∧ s.ctrl.var.Safe := by
  have h := C96_cart_pole (floatLaws_bin 53) (by norm_num) (L := L) (P := P) (dt := dt) hN hm hne scr plant env x0 xp K o
  have hb : ltb (acc (0 : Bin 53) (lit (2 / 1000)) 5000) (lit 10) = false := by rw [acc_two_thousandths.2]; decide +kernel
  rwa [hb, if_neg (by simp)] at h

/-- The default parameters of the test (TestFmpcCartPole.cpp 290-316). -/
example (L : GainSolver (Bin 53)) (P : Bin 53 → Callbacks 4 (fun _ : Bin 53 => 1) (fun _ => 4))
    (scr : ℕ → Scratch 4 (fun _ => 1) (fun _ => 4) (Bin 53))
    (plant : Bin 53 → Vec 4 (Bin 53) → Vec 1 (Bin 53) → Vec 4 (Bin 53)) (env : ℕ → List (Callback (Bin 53))) (o : Obj 4 (Bin 53)) :
    ∃ s, simLoop (ctrlOf L P (lit (1 / 100)) (defaultConfig 200 5) scr) plant (lit (2 / 1000)) (lit 10) env (fun _ => 0)
        (simCtrlInit 1 4 200 (fun _ _ => 0) (fun _ => 0) o) = .ok s ∧ s.k = 5000 :=
  let ⟨s, h1, h2, _⟩ := C96_cart_pole_double (L := L) (P := P) (dt := lit (1 / 100)) (cfg := defaultConfig 200 5)
    (by simp [defaultConfig]) (by simp [defaultConfig]) ⟨fun _ _ _ => by norm_num, by simp [defaultConfig]⟩ scr plant env (fun _ => 0)
    (fun _ => 0) (fun _ _ => 0) o
  ⟨s, h1, h2⟩

/-- **C96**, the loop of the oscillator test (5 ms per step, to 10 s): 2000 or 2001 rounds, in any rounded arithmetic, for every problem
and plant with fixed dimensions; no exception and no undefined access; a status is `Succeeded` exactly if the last recorded KKT error
is at most the threshold; no slack or multiplier becomes `<= 0`. -/
theorem C96_oscillator (F : FloatLaws α u) (hu : u ≤ 1 / 2 ^ 45) {n m p : ℕ} {L : GainSolver α}
    {P : Callbacks n (fun _ : α => m) (fun _ => p)} {dt : α} {cfg : Config α} (hN : 0 < cfg.horizon) (hm : 0 < cfg.maxIter)
    (hne : NoEmpty cfg.horizon.toNat n (fun _ => p) cfg) (scr : ℕ → Scratch n (fun _ => m) (fun _ => p) α)
    (plant : α → Vec n α → Vec m α → Vec n α) (x0 : Vec n α) (o : Obj n α) {init : VarL n α} (hw : WarmSafe m p cfg.horizon init) :
    ∃ s, mpcLoop L P plant dt (lit (5 / 1000)) cfg scr (lit 10) o 0 x0 init = .ok s ∧
      s.k = (if ltb (acc 0 (lit (5 / 1000) : α) 2000) (lit 10) then 2001 else 2000) ∧
      LoopTracks plant (lit (5 / 1000)) 0 x0 cfg.kktErrorThre s ∧ s.var.Safe := by
  obtain ⟨r1, r2⟩ := rounds_float (α := α) F hu (q := 5 / 1000) (c := 10) (K := 2000) (by norm_num) (by norm_num) (by norm_num)
    (by norm_num) (by norm_num)
  obtain ⟨s, h1, h2, h3, h4⟩ := mpcLoop_tracks (L := L) (P := P) (plant := plant) (dt := dt) (scr := scr) (o := o) (t0 := 0) (x0 := x0)
    (simDt := lit (5 / 1000)) (endT := lit 10) (M := if ltb (acc 0 (lit (5 / 1000) : α) 2000) (lit 10) then 2001 else 2000)
    F (hu.trans (by norm_num)) hN hm hne (by
      intro k hk
      by_cases h : k < 2000
      · exact r1 k h
      · split at hk
        · rename_i hl; rw [show k = 2000 by omega, hl]
        · omega) (by
      split
      · exact r2
      · rename_i h; simpa using h) hw
  exact ⟨s, h1, h2, h3, h4.safe⟩

/-- **C96**, in double precision: exactly 2000 rounds. -/
theorem C96_oscillator_double {n m p : ℕ} {L : GainSolver (Bin 53)}
    {P : Callbacks n (fun _ : Bin 53 => m) (fun _ => p)} {dt : Bin 53} {cfg : Config (Bin 53)} (hN : 0 < cfg.horizon)
    (hm : 0 < cfg.maxIter) (hne : NoEmpty cfg.horizon.toNat n (fun _ => p) cfg) (scr : ℕ → Scratch n (fun _ => m) (fun _ => p) (Bin 53))
    (plant : Bin 53 → Vec n (Bin 53) → Vec m (Bin 53) → Vec n (Bin 53)) (x0 : Vec n (Bin 53)) (o : Obj n (Bin 53))
    {init : VarL n (Bin 53)} (hw : WarmSafe m p cfg.horizon init) :
    ∃ s, mpcLoop L P plant dt (lit (5 / 1000)) cfg scr (lit 10) o 0 x0 init = .ok s ∧ s.k = 2000 ∧
      LoopTracks plant (lit (5 / 1000)) 0 x0 cfg.kktErrorThre s ∧ s.var.Safe := by
  have h := C96_oscillator (floatLaws_bin 53) (by norm_num) (L := L) (P := P) (dt := dt) hN hm hne scr plant x0 o hw
  have hb : ltb (acc (0 : Bin 53) (lit (5 / 1000)) 2000) (lit 10) = false := by rw [acc_five_thousandths.2]; decide +kernel
  rwa [hb, if_neg (by simp)] at h

/-- The parameters of the test: 400 steps, `max_iter = 3`, slacks and multipliers 1 (TestFmpcOscillator.cpp 139-163). -/
example (L : GainSolver (Bin 53)) (P : Callbacks 2 (fun _ : Bin 53 => 1) (fun _ => 3))
    (scr : ℕ → Scratch 2 (fun _ => 1) (fun _ => 3) (Bin 53)) (plant : Bin 53 → Vec 2 (Bin 53) → Vec 1 (Bin 53) → Vec 2 (Bin 53))
    (x0 : Vec 2 (Bin 53)) (o : Obj 2 (Bin 53)) :
    ∃ s, mpcLoop L P plant (lit (1 / 100)) (lit (5 / 1000)) (defaultConfig 400 3) scr (lit 10) o 0 x0 (resetVar 2 1 3 400 0 0 0 1 1) =
      .ok s ∧ s.k = 2000 :=
  let ⟨s, h1, h2, _⟩ := C96_oscillator_double (L := L) (P := P) (dt := lit (1 / 100)) (cfg := defaultConfig 400 3)
    (by simp [defaultConfig]) (by simp [defaultConfig]) ⟨fun _ _ _ => by norm_num, by simp [defaultConfig]⟩ scr plant x0 o
    (init := resetVar 2 1 3 400 0 0 0 1 1) (warmSafe_reset 400 0 0 0 (by decide +kernel) (by decide +kernel))
  ⟨s, h1, h2⟩

end FMPC

namespace Cgmres

theorem leb_of_ltb {a b : α} (h : ltb a b = true) : leb a b = true := by simp [leb, h]

theorem not_leb_of_lt (F : FloatLaws α u) {a b : α} (h : ltb b a = true) : leb a b = false := by
  rw [F.ltb_iff] at h
  rw [← Bool.not_eq_true]
  simp only [leb, Bool.or_eq_true, F.ltb_iff, F.eqb_iff]
  revert h
  cases F.val a <;> cases F.val b <;> simp only [FVal.Lt, FVal.Eq, or_self, or_false, false_or, not_false_eq_true, imp_self,
    implies_true, not_true_eq_false]
  intro h
  rintro (h' | h') <;> linarith

/-- Rounds of `for(t = 0; t <= sim_duration; t += dt)` if `sim_duration` is `K` steps: `K` or `K + 1`. -/
theorem rounds_le_float (F : FloatLaws α u) (hu : u ≤ 1 / 2 ^ 45) {q c : ℚ} {K : ℕ} (hc : c = K * q) (q0 : 1 / 10 ^ 6 ≤ q) (q1 : q ≤ 1 / 10)
    (hK : K < 30000) (hKq : K * q ≤ 29) :
    (∀ k < K, leb (acc 0 (lit q : α) k) (lit c) = true) ∧ leb (acc 0 (lit q : α) (K + 1)) (lit c) = false := by
  have q00 : 0 < q := lt_of_lt_of_le (by norm_num) q0
  have q0' : (1 / 10 ^ 6 : ℝ) ≤ q := by
    have : ((1 / 10 ^ 6 : ℚ) : ℝ) ≤ q := by exact_mod_cast q0
    push_cast at this
    exact this
  have hl := lit_float (α := α) F hu (c := c) (by rw [hc]; positivity) (by rw [hc]; linarith)
  have hc' : (c : ℝ) = K * q := by rw [hc]; push_cast; rfl
  rw [hc'] at hl
  constructor
  · intro k hk
    have hk' : (k : ℚ) + 1 ≤ K := by exact_mod_cast hk
    have hk2 : (k : ℝ) + 1 ≤ K := by exact_mod_cast hk
    have := acc_float (α := α) F hu q00 q1 (k := k) (by omega) (by nlinarith)
    refine leb_of_ltb (this.lt hl ?_)
    have : ((k : ℝ) + 1) * q ≤ K * q := mul_le_mul_of_nonneg_right hk2 (le_trans (by norm_num) q0')
    linarith
  · have := acc_float (α := α) F hu q00 q1 (k := K + 1) (by omega) (by push_cast; linarith)
    refine not_leb_of_lt F (hl.lt this ?_)
    push_cast
    linarith

variable {n m : ℕ}

/-- **C96**, C/GMRES with the default step of 1 ms and `sim_duration` a whole number `D` of seconds up to 29: `1000 D` or `1000 D + 1`
rounds, in any rounded arithmetic. -/
theorem C96_cgmres (F : FloatLaws α u) (hu : u ≤ 1 / 2 ^ 45) (L : Gmres.Dense α) (P : Problem n m α) (ode simOde : Ode α)
    (cfg : Config α) {D : ℕ} (hD : D ≤ 29) (hdt : cfg.dt = lit (1 / 1000)) (hdur : cfg.simDuration = lit (D : ℚ))
    (hd : cfg.dumpStep ≠ 0) (hN : 0 < cfg.divideNum) (hk : 0 ≤ cfg.kMax) :
    ∃ (T : Traj L P ode simOde cfg cfg.divideNum.toNat) (M : ℕ) (s : _),
      M = (if leb (acc 0 (lit (1 / 1000) : α) (1000 * D)) (lit (D : ℚ)) then 1000 * D + 1 else 1000 * D) ∧
      run L P ode simOde cfg = .ok s ∧ s.i = M ∧ s.t = acc 0 cfg.dt M ∧ s.x = T.x M ∧ s.u = T.u M ∧
      s.dump = ((List.range M).filter fun j : ℕ => cfg.dumpStep ∣ (j : ℤ)).map T.line := by
  have hDq : ((D : ℕ) : ℚ) ≤ 29 := by exact_mod_cast hD
  obtain ⟨r1, r2⟩ := rounds_le_float (α := α) F hu (q := 1 / 1000) (c := D) (K := 1000 * D) (by push_cast; ring) (by norm_num)
    (by norm_num) (by omega) (by push_cast; linarith)
  obtain ⟨T, s, h1, h2, h3, h4, h5, -, h6⟩ := C96_run L P ode simOde cfg
    (M := if leb (acc 0 (lit (1 / 1000) : α) (1000 * D)) (lit (D : ℚ)) then 1000 * D + 1 else 1000 * D) (by
      intro k hk
      rw [hdt, hdur]
      by_cases h : k < 1000 * D
      · exact r1 k h
      · split at hk
        · rename_i hl; rw [show k = 1000 * D by omega, hl]
        · omega) (by
      rw [hdt, hdur]
      split
      · exact r2
      · rename_i h; simpa using h) hd hN hk
  exact ⟨T, _, s, rfl, h1, h2, h3, h4, h5, h6⟩

/-- Number of dumped lines for the default dump step. -/
theorem dumped_count (M : ℕ) : ((List.range M).filter fun j : ℕ => (5 : ℤ) ∣ (j : ℤ)).length = (M + 4) / 5 := by
  induction M with
  | zero => rfl
  | succ M ih =>
    rw [List.range_succ, List.filter_append, List.length_append, ih, List.filter_singleton]
    by_cases h : (5 : ℤ) ∣ (M : ℤ)
    · simp only [h, decide_true, cond_true, List.length_singleton]; omega
    · simp only [h, decide_false, cond_false, List.length_nil]; omega

/-- **C96**, in double precision: the default run of 10 s does 10001 rounds and dumps 2001 lines; the run of 20 s of TestCgmresSolver.cpp
does 20000 rounds and dumps 4000 lines, one fewer than `⌊sim_duration / dt⌋ + 1` (C54) because the accumulated time exceeds 20. -/
theorem C96_cgmres_double (L : Gmres.Dense (Bin 53)) (P : Problem n m (Bin 53)) (ode simOde : Ode (Bin 53)) (cfg : Config (Bin 53))
    (hdt : cfg.dt = lit (1 / 1000)) (hd : cfg.dumpStep = 5) (hN : 0 < cfg.divideNum) (hk : 0 ≤ cfg.kMax) :
    (cfg.simDuration = lit 10 → ∃ s, run L P ode simOde cfg = .ok s ∧ s.i = 10001 ∧ s.dump.length = 2001) ∧
    (cfg.simDuration = lit 20 → ∃ s, run L P ode simOde cfg = .ok s ∧ s.i = 20000 ∧ s.dump.length = 4000) := by
  constructor
  · intro h
    obtain ⟨T, M, s, h0, h1, h2, -, -, -, h6⟩ := C96_cgmres (floatLaws_bin 53) (by norm_num) L P ode simOde cfg (D := 10) (by norm_num)
      hdt (by exact_mod_cast h) (by omega) hN hk
    have hb : leb (acc (0 : Bin 53) (lit (1 / 1000)) (1000 * 10)) (lit ((10 : ℕ) : ℚ)) = true := by
      rw [show 1000 * 10 = 10000 by norm_num, acc_thousandth.1]; decide +kernel
    rw [hb, if_pos rfl] at h0
    subst h0
    refine ⟨s, h1, h2, ?_⟩
    rw [h6, List.length_map, hd, dumped_count]
  · intro h
    obtain ⟨T, M, s, h0, h1, h2, -, -, -, h6⟩ := C96_cgmres (floatLaws_bin 53) (by norm_num) L P ode simOde cfg (D := 20) (by norm_num)
      hdt (by exact_mod_cast h) (by omega) hN hk
    have hb : leb (acc (0 : Bin 53) (lit (1 / 1000)) (1000 * 20)) (lit ((20 : ℕ) : ℚ)) = false := by
      rw [show 1000 * 20 = 20000 by norm_num, acc_thousandth.2.2.2]; decide +kernel
    rw [hb, if_neg (by simp)] at h0
    subst h0
    refine ⟨s, h1, h2, ?_⟩
    rw [h6, List.length_map, hd, dumped_count]

end Cgmres

end Nmpc
