import Verif.Float.Mpc
import Verif.Float.Accum
import Verif.Problems.Model

/-!
# The receding-horizon tests of the DDP examples under rounding (C95)

The loops advance the time by repeated rounded additions, and the plans sample the problem at `current_t + i * dt`, again
rounded.  The input dimension of the examples with contacts changes at certain times; a warm start fits only if the old and
the new plan agree on the dimension of each step.
-/

set_option linter.unusedSectionVars false

namespace Nmpc

variable {α : Type} [Add α] [Sub α] [Mul α] [Div α] [Neg α] [Zero α] [One α] [FOps α] {u : ℝ}

open DDP (timeAt)

/-- Accumulated times and sample times are off by at most 2e-8 (in double precision much less). -/
theorem times_float (F : FloatLaws α u) (hu : u ≤ 1 / 2 ^ 45) {q : ℚ} (q0 : 0 < q) (q1 : q ≤ 1 / 10) {k i : ℕ}
    (hk : k ≤ 10000) (hi : i ≤ 10000) (hkq : k * q ≤ 30) (hiq : i * q ≤ 30) :
    F.Within (1 / 10 ^ 8) (k * q) (acc 0 (lit q : α) k) ∧
    F.Within (2 / 10 ^ 8) ((k + i : ℕ) * q) (timeAt (acc 0 (lit q : α) k) (lit q) i) := by
  have u0 := F.u_nonneg
  have q0' : (0 : ℝ) < q := by exact_mod_cast q0
  have q1' : (q : ℝ) ≤ 1 / 10 := by
    have : ((q : ℚ) : ℝ) ≤ ((1 / 10 : ℚ) : ℝ) := by exact_mod_cast q1
    simpa using this
  have hk' : (k : ℝ) ≤ 10000 := by exact_mod_cast hk
  have hi' : (i : ℝ) ≤ 10000 := by exact_mod_cast hi
  have hkq' : (k : ℝ) * q ≤ 30 := by exact_mod_cast hkq
  have hiq' : (i : ℝ) * q ≤ 30 := by exact_mod_cast hiq
  have k0 : (0 : ℝ) ≤ k := Nat.cast_nonneg k
  have i0 : (0 : ℝ) ≤ i := Nat.cast_nonneg i
  have hu2 : u ≤ 3 / 10 ^ 14 := hu.trans (by norm_num)
  have hq : F.Within (u * q) q (lit q : α) := by
    have := F.within_lit q
    rwa [abs_of_pos q0'] at this
  have uq : u * q ≤ 1 := by nlinarith
  have hacc : F.Within (k * (1 / 10 ^ 12)) (k * q) (acc 0 (lit q : α) k) := by
    refine FloatLaws.acc_within hq q0'.le (by norm_num) (K := k) ?_ le_rfl
    have h1 : u * (q + (k * (q + 1 / 10 ^ 12) + u * q)) ≤ 3 / 10 ^ 14 * 33 := by
      refine mul_le_mul hu2 ?_ (by positivity) (by norm_num)
      linarith
    linarith
  refine ⟨hacc.mono (by linarith), ?_⟩
  have hi1 := (F.within_lit (i : ℚ)).mul hq
  have hE : (|((i : ℚ) : ℝ)| * (u * q) + |(q : ℝ)| * (u * |((i : ℚ) : ℝ)|) + u * |((i : ℚ) : ℝ)| * (u * q)) * (1 + u) +
      u * |((i : ℚ) : ℝ) * q| ≤ 1 / 10 ^ 10 := by
    rw [show ((i : ℚ) : ℝ) = (i : ℝ) by norm_cast, abs_of_nonneg i0, abs_of_pos q0', abs_of_nonneg (by positivity)]
    have e : ((i : ℝ) * (u * q) + q * (u * i) + u * i * (u * q)) * (1 + u) + u * (i * q) =
      u * (i * q) * ((2 + u) * (1 + u) + 1) := by ring
    rw [e]
    have h1 : u * (i * q) ≤ 3 / 10 ^ 14 * 30 := mul_le_mul hu2 hiq' (by positivity) (by norm_num)
    have h2 : (2 + u) * (1 + u) + 1 ≤ 8 := by nlinarith
    calc _ ≤ (3 / 10 ^ 14 * 30) * (8 : ℝ) := mul_le_mul h1 h2 (by positivity) (by norm_num)
      _ ≤ _ := by norm_num
  have hadd := hacc.add (hi1.mono hE)
  have e : (k : ℝ) * q + ((i : ℚ) : ℝ) * q = ((k + i : ℕ) : ℝ) * q := by push_cast; ring
  rw [e] at hadd
  refine hadd.mono ?_
  have h1 : |((k + i : ℕ) : ℝ) * q| ≤ 60 := by
    rw [abs_of_nonneg (by positivity)]
    push_cast
    linarith
  have h2 : u * (|((k + i : ℕ) : ℝ) * q| + k * (1 / 10 ^ 12) + 1 / 10 ^ 10) ≤ 3 / 10 ^ 14 * 61 :=
    mul_le_mul hu2 (by linarith) (by positivity) (by norm_num)
  linarith

/-- The shifted sample time `t + epsilon_t` of step `j`. -/
theorem shifted_float (F : FloatLaws α u) (hu : u ≤ 1 / 2 ^ 45) {q : ℚ} {j : ℕ} (q0 : 0 ≤ q) (hj : j * q ≤ 60) {t : α}
    (ht : F.Within (2 / 10 ^ 8) (j * q) t) : F.Within (3 / 10 ^ 8) (j * q + 1 / 10 ^ 6) (t + lit (1 / 1000000)) := by
  have u0 := F.u_nonneg
  have hu2 : u ≤ 3 / 10 ^ 14 := hu.trans (by norm_num)
  have h1 := F.within_lit (1 / 1000000)
  have e : (((1 / 1000000 : ℚ)) : ℝ) = 1 / 10 ^ 6 := by norm_num
  rw [e, abs_of_pos (by norm_num)] at h1
  refine (ht.add (h1.mono (e' := 1 / 10 ^ 18) (by linarith))).mono ?_
  have hj' : (j : ℝ) * q ≤ 60 := by exact_mod_cast hj
  have q0' : (0 : ℝ) ≤ q := by exact_mod_cast q0
  have h2 : u * (|(j : ℝ) * q + 1 / 10 ^ 6| + 2 / 10 ^ 8 + 1 / 10 ^ 18) ≤ 3 / 10 ^ 14 * 61 := by
    refine mul_le_mul hu2 ?_ (by positivity) (by norm_num)
    rw [abs_of_nonneg (by positivity)]
    linarith
  linarith

/-- Small literals are off by at most 1e-8. -/
theorem lit_float (F : FloatLaws α u) (hu : u ≤ 1 / 2 ^ 45) {c : ℚ} (c0 : 0 ≤ c) (c1 : c ≤ 60) :
    F.Within (1 / 10 ^ 8) c (lit c : α) := by
  have u0 := F.u_nonneg
  have hu2 : u ≤ 3 / 10 ^ 14 := hu.trans (by norm_num)
  have c0' : (0 : ℝ) ≤ c := by exact_mod_cast c0
  have c1' : (c : ℝ) ≤ 60 := by exact_mod_cast c1
  refine (F.within_lit c).mono ?_
  rw [abs_of_nonneg c0']
  nlinarith

/-- A threshold that is a multiple of the step size (or anywhere between two samples) separates the shifted sample times as
it separates the exact ones. -/
theorem threshold_float (F : FloatLaws α u) (hu : u ≤ 1 / 2 ^ 45) {q c : ℚ} {j j0 : ℕ} (q0 : 2 / 10 ^ 6 ≤ q) (hj : j * q ≤ 60) (c1 : c ≤ 60)
    (h0 : c ≤ j0 * q) (h1 : (j0 - 1) * q + 2 / 10 ^ 6 ≤ c) (c0 : 0 ≤ c) {t : α} (ht : F.Within (2 / 10 ^ 8) (j * q) t) :
    (ltb (t + lit (1 / 1000000)) (lit c) = decide (j < j0)) ∧ (ltb (lit c) (t + lit (1 / 1000000)) = decide (j0 ≤ j)) := by
  have q0' : 0 ≤ q := le_trans (by norm_num) q0
  have hs := shifted_float F hu q0' hj ht
  have hc := lit_float (α := α) F hu c0 c1
  have h0' : (c : ℝ) ≤ j0 * q := by exact_mod_cast h0
  have h1' : ((j0 : ℝ) - 1) * q + 2 / 10 ^ 6 ≤ c := by
    have : (((j0 - 1) * q + 2 / 10 ^ 6 : ℚ) : ℝ) ≤ c := by exact_mod_cast h1
    push_cast at this
    exact this
  have q0'' : (0 : ℝ) ≤ q := by exact_mod_cast q0'
  by_cases h : j0 ≤ j
  · have hjj : (j0 : ℝ) ≤ j := by exact_mod_cast h
    have := mul_le_mul_of_nonneg_right hjj q0''
    rw [hs.not_lt hc (by linarith), hc.lt hs (by linarith)]
    simp [h]
  · have hjj : (j : ℝ) ≤ j0 - 1 := by
      have : (j : ℝ) + 1 ≤ j0 := by exact_mod_cast (by omega : j + 1 ≤ j0)
      linarith
    have := mul_le_mul_of_nonneg_right hjj q0''
    rw [hs.lt hc (by linarith), hc.not_lt hs (by linarith)]
    simp [h, Nat.lt_of_not_le h]

/-- The number of rounds of `while(current_t < end_t)`: `k` rounds if `end_t` is `k` steps away, or one more. -/
theorem rounds_float (F : FloatLaws α u) (hu : u ≤ 1 / 2 ^ 45) {q c : ℚ} {K : ℕ} (hc : c = K * q) (q0 : 1 / 10 ^ 6 ≤ q) (q1 : q ≤ 1 / 10)
    (hK : K < 10000) (hKq : K * q ≤ 29) :
    (∀ k < K, ltb (acc 0 (lit q : α) k) (lit c) = true) ∧ ltb (acc 0 (lit q : α) (K + 1)) (lit c) = false := by
  have q00 : 0 < q := lt_of_lt_of_le (by norm_num) q0
  have q0' : (1 / 10 ^ 6 : ℝ) ≤ q := by
    have : ((1 / 10 ^ 6 : ℚ) : ℝ) ≤ q := by exact_mod_cast q0
    push_cast at this
    exact this
  have hl := lit_float (α := α) F hu (c := c) (by rw [hc]; positivity) (by rw [hc]; linarith)
  have hc' : (c : ℝ) = K * q := by rw [hc]; push_cast; rfl
  rw [hc'] at hl
  constructor
  · intro k hk
    have hk' : (k : ℚ) + 1 ≤ K := by exact_mod_cast hk
    have hk2 : (k : ℝ) + 1 ≤ K := by exact_mod_cast hk
    have := (times_float (α := α) F hu q00 q1 (k := k) (i := 0) (by omega) (by omega) (by nlinarith) (by simp)).1
    refine this.lt hl ?_
    have : ((k : ℝ) + 1) * q ≤ K * q := mul_le_mul_of_nonneg_right hk2 (le_trans (by norm_num) q0')
    linarith
  · have := (times_float (α := α) F hu q00 q1 (k := K + 1) (i := 0) (by omega) (by omega)
      (by push_cast; linarith) (by simp)).1
    refine this.not_lt hl ?_
    push_cast
    linarith

namespace DDP

/-- `Config` as the tests leave it: the defaults of everything that matters for termination. -/
structure StdReg (cfg : Config α) : Prop where
  factor : cfg.lambdaFactor = lit (16 / 10)
  lambdaMin : cfg.lambdaMin = lit (1 / 10 ^ 6)
  lambdaMax : cfg.lambdaMax = lit (10 ^ 10)
  dlambda : cfg.initialDlambda = 1
  lambda : cfg.initialLambda = lit (1 / 10 ^ 4) ∨ cfg.initialLambda = lit (1 / 10 ^ 6)
  second : cfg.useSecond = false

variable {n : ℕ} {md : α → ℕ} {L : LLT α} {P : Callbacks n md} {lim : Option ((t : α) → Vec (md t) α × Vec (md t) α)} {N : ℕ} {dt : α}

theorem solves_std (F : FloatLaws α u) (hu : u ≤ 1 / 2 ^ 45) {cfg : Config α} (h : StdReg cfg)
    (hlim : cfg.withConstraint = true → lim.isSome = true) (hN : cfg.horizon = N) (t : α)
    (scratch : Scratch n (fun i => md (timeAt t dt i)) α) : Solves L P lim dt cfg t scratch N := by
  have u0 := F.u_nonneg
  have hu2 : u ≤ 3 / 10 ^ 14 := hu.trans (by norm_num)
  obtain ⟨f, hf, hf'⟩ := (F.lit (16 / 10)).bounds
  obtain ⟨lo, hlo, hlo'⟩ := (F.lit (1 / 10 ^ 6)).bounds
  obtain ⟨hi, hhi, -⟩ := (F.lit (10 ^ 10)).bounds
  obtain ⟨l, hl⟩ : ∃ l, F.val cfg.initialLambda = .fin l := by
    rcases h.lambda with h | h <;> rw [h]
    · obtain ⟨l, hl, -⟩ := (F.lit (1 / 10 ^ 4)).bounds; exact ⟨l, hl⟩
    · exact ⟨lo, hlo⟩
  have R : RegParams F cfg := ⟨f, lo, hi, by rw [h.factor, hf], by rw [h.lambdaMin, hlo], by rw [h.lambdaMax, hhi], by
      norm_num at hf'
      have h1 := (abs_le.1 hf').1
      nlinarith, by
      norm_num at hlo'
      have h1 := (abs_le.1 hlo').1
      nlinarith⟩
  exact solves_float (hu.trans (by norm_num)) R hl (by rw [h.dlambda]; exact F.one) h.second hlim hN t scratch

end DDP

namespace Problems

open DDP

/-- Number of contacts in step `j` of the vertical motion test (0.01 s per step). -/
def verticalContacts (j : ℕ) : ℕ := if 200 ≤ j ∧ j < 300 then 2 else if 450 ≤ j ∧ j < 500 then 0 else 1

theorem vertical_dims (F : FloatLaws α u) (hu : u ≤ 1 / 2 ^ 45) {k i : ℕ} (hk : k ≤ 1001) (hi : i ≤ 300) :
    Vertical.inputDim (timeAt (acc 0 (lit (1 / 100) : α) k) (lit (1 / 100)) i) = verticalContacts (k + i) := by
  have hk' : (k : ℚ) ≤ 1001 := by exact_mod_cast hk
  have hi' : (i : ℚ) ≤ 300 := by exact_mod_cast hi
  have ht := (times_float (α := α) F hu (q := 1 / 100) (by norm_num) (by norm_num) (k := k) (i := i) (by omega) (by omega)
    (by linarith) (by linarith)).2
  have hj : ((k + i : ℕ) : ℚ) * (1 / 100) ≤ 60 := by push_cast; linarith
  obtain ⟨-, a2⟩ := threshold_float F hu (c := 2) (j0 := 200) (by norm_num) hj (by norm_num) (by norm_num) (by norm_num) (by norm_num) ht
  obtain ⟨a3, -⟩ := threshold_float F hu (c := 3) (j0 := 300) (by norm_num) hj (by norm_num) (by norm_num) (by norm_num) (by norm_num) ht
  obtain ⟨-, a4⟩ := threshold_float F hu (c := 9 / 2) (j0 := 450) (by norm_num) hj (by norm_num) (by norm_num) (by norm_num) (by norm_num) ht
  obtain ⟨a5, -⟩ := threshold_float F hu (c := 5) (j0 := 500) (by norm_num) hj (by norm_num) (by norm_num) (by norm_num) (by norm_num) ht
  unfold Vertical.inputDim verticalContacts
  dsimp only
  rw [a2, a3, a4, a5]
  simp

/-- **C95**, vertical motion: in every arithmetic of the standard model with unit roundoff up to 2^-45 (doubles: 2^-53) the
loop of the test ends after 1000 or 1001 rounds without exception or undefined access, for every problem with this
`inputDim`, with and without input limits: in every round the warm start has the dimensions `solve` computes for its times. -/
theorem C95_vertical (F : FloatLaws α u) (hu : u ≤ 1 / 2 ^ 45) {L : LLT α} {P : Callbacks 2 (Vertical.inputDim (α := α))}
    (lims : (t : α) → Vec (Vertical.inputDim t) α × Vec (Vertical.inputDim t) α) (cfgs : ℕ → Config α)
    (hc : ∀ k, StdReg (cfgs k) ∧ (cfgs k).horizon = 300) (o : Obj 2 α) (x0 : Vec 2 α)
    (scr : ℕ → (t : α) → Scratch 2 (fun i => Vertical.inputDim (timeAt t (lit (1 / 100)) i)) α) :
    ∃ s, mpcLoop L P (some lims) (lit (1 / 100)) cfgs scr
        (fun t => shiftDim (Vertical.inputDim (t + lit ((300 : ℕ) : ℚ) * lit (1 / 100)))) (lit 10) o 0 x0
        (zeroInputs Vertical.inputDim 0 (lit (1 / 100)) 300) = .ok s ∧
      s.k = (if ltb (acc 0 (lit (1 / 100) : α) 1000) (lit 10) then 1001 else 1000) ∧ Tracks P (lit (1 / 100)) 0 x0 300 s := by
  obtain ⟨r1, r2⟩ := rounds_float (α := α) F hu (q := 1 / 100) (c := 10) (K := 1000) (by norm_num) (by norm_num) (by norm_num) (by norm_num)
    (by norm_num)
  refine mpcLoop_tracks (by norm_num) ?_ ?_ (fun k _ => solves_std F hu (hc k).1 (fun _ => rfl) (hc k).2 _ _) ?_
    (zeroInputs_dims _ _ _ _).1 (zeroInputs_dims _ _ _ _).2
  · intro k hk
    by_cases h : k < 1000
    · exact r1 k h
    · split at hk
      · rename_i h'
        obtain rfl : k = 1000 := by omega
        exact h'
      · omega
  · split
    · exact r2
    · rename_i h; simpa using h
  · intro k hk
    have hk' : k ≤ 1000 := by split at hk <;> omega
    exact shifts_dim (by norm_num) (fun i => verticalContacts (k + i)) (fun i hi => vertical_dims F hu (by omega) hi)
      (fun i hi => by rw [vertical_dims F hu (by omega) (by omega)]; congr 1; omega)

/-- **C95**, vertical motion in double precision: exactly 1001 rounds, one more than in exact arithmetic, because 0.01 added
1000 times is less than 10. -/
theorem C95_vertical_double {L : LLT (Bin 53)} {P : Callbacks 2 (Vertical.inputDim (α := Bin 53))}
    (lims : (t : Bin 53) → Vec (Vertical.inputDim t) (Bin 53) × Vec (Vertical.inputDim t) (Bin 53)) (cfgs : ℕ → Config (Bin 53))
    (hc : ∀ k, StdReg (cfgs k) ∧ (cfgs k).horizon = 300) (o : Obj 2 (Bin 53)) (x0 : Vec 2 (Bin 53))
    (scr : ℕ → (t : Bin 53) → Scratch 2 (fun i => Vertical.inputDim (timeAt t (lit (1 / 100)) i)) (Bin 53)) :
    ∃ s, mpcLoop L P (some lims) (lit (1 / 100)) cfgs scr
        (fun t => shiftDim (Vertical.inputDim (t + lit ((300 : ℕ) : ℚ) * lit (1 / 100)))) (lit 10) o 0 x0
        (zeroInputs Vertical.inputDim 0 (lit (1 / 100)) 300) = .ok s ∧ s.k = 1001 ∧ Tracks P (lit (1 / 100)) 0 x0 300 s := by
  have h := C95_vertical (floatLaws_bin 53) (by norm_num) (L := L) (P := P) lims cfgs hc o x0 scr
  have hb : ltb (acc (0 : Bin 53) (lit (1 / 100)) 1000) (lit 10) = true := by rw [acc_hundredth.1]; decide +kernel
  rwa [hb, if_pos rfl] at h

/-- The configurations of the test: defaults, 300 steps, `initial_lambda = 1e-6`, `max_iter = 3` from the second round on
(TestDDPVerticalMotion.cpp 271-273, 299). -/
example (p : Vertical (Bin 53)) (L : LLT (Bin 53)) (withLimits : Bool) (as : List (Bin 53)) (maxIter : ℤ) (o : Obj 2 (Bin 53))
    (scr : ℕ → (t : Bin 53) → Scratch 2 (fun i => Vertical.inputDim (timeAt t (lit (1 / 100)) i)) (Bin 53)) :
    ∃ s, mpcLoop L (p.ddp (lit (1 / 100))) (some fun _ => (fun _ => 0, fun _ => lit 30)) (lit (1 / 100))
        (fun k => { defaultConfig as (if k = 0 then maxIter else 3) 300 with
          withConstraint := withLimits, initialLambda := lit (1 / 10 ^ 6) }) scr
        (fun t => shiftDim (Vertical.inputDim (t + lit ((300 : ℕ) : ℚ) * lit (1 / 100)))) (lit 10) o 0 ![lit (12 / 10), 0]
        (zeroInputs Vertical.inputDim 0 (lit (1 / 100)) 300) = .ok s ∧ s.k = 1001 ∧
      Tracks (p.ddp (lit (1 / 100))) (lit (1 / 100)) 0 ![lit (12 / 10), 0] 300 s :=
  C95_vertical_double _ _ (fun _ => ⟨⟨rfl, rfl, rfl, rfl, .inr rfl, rfl⟩, rfl⟩) _ _ _

/-- Number of force scales in the stance at time `t`: the columns of what `ref_stance_func` returns
(TestDDPCentroidalMotion.cpp 64-68, 248-267; `makeStanceDataFromRect` has sixteen columns, 206-236). -/
def stanceDim (t : α) : ℕ :=
  let t := t + lit (1 / 1000000)
  if ltb t (lit (14 / 10)) then 16 else if ltb t (lit (16 / 10)) then 0 else 16

/-- Number of force scales in step `j` of the centroidal motion test (0.03 s per step). -/
def stanceContacts (j : ℕ) : ℕ := if j < 47 then 16 else if j < 54 then 0 else 16

theorem stance_dims (F : FloatLaws α u) (hu : u ≤ 1 / 2 ^ 45) {k i : ℕ} (hk : k ≤ 101) (hi : i ≤ 100) :
    stanceDim (timeAt (acc 0 (lit (3 / 100) : α) k) (lit (3 / 100)) i) = stanceContacts (k + i) := by
  have hk' : (k : ℚ) ≤ 101 := by exact_mod_cast hk
  have hi' : (i : ℚ) ≤ 100 := by exact_mod_cast hi
  have ht := (times_float (α := α) F hu (q := 3 / 100) (by norm_num) (by norm_num) (k := k) (i := i) (by omega) (by omega)
    (by linarith) (by linarith)).2
  have hj : ((k + i : ℕ) : ℚ) * (3 / 100) ≤ 60 := by push_cast; linarith
  obtain ⟨a1, -⟩ := threshold_float F hu (c := 14 / 10) (j0 := 47) (by norm_num) hj (by norm_num) (by norm_num) (by norm_num) (by norm_num) ht
  obtain ⟨a2, -⟩ := threshold_float F hu (c := 16 / 10) (j0 := 54) (by norm_num) hj (by norm_num) (by norm_num) (by norm_num) (by norm_num) ht
  unfold stanceDim stanceContacts
  dsimp only
  rw [a1, a2]
  simp

/-- **C95**, centroidal motion: 100 or 101 rounds of 0.03 s without exception or undefined access. -/
theorem C95_centroidal (F : FloatLaws α u) (hu : u ≤ 1 / 2 ^ 45) {L : LLT α} {P : Callbacks 9 (stanceDim (α := α))}
    (lim : Option ((t : α) → Vec (stanceDim t) α × Vec (stanceDim t) α)) (cfgs : ℕ → Config α)
    (hc : ∀ k, StdReg (cfgs k) ∧ (cfgs k).horizon = 100 ∧ (cfgs k).withConstraint = false) (o : Obj 9 α) (x0 : Vec 9 α)
    (scr : ℕ → (t : α) → Scratch 9 (fun i => stanceDim (timeAt t (lit (3 / 100)) i)) α) :
    ∃ s, mpcLoop L P lim (lit (3 / 100)) cfgs scr
        (fun t => shiftDim (stanceDim (t + lit ((100 : ℕ) : ℚ) * lit (3 / 100)))) (lit 3) o 0 x0
        (zeroInputs stanceDim 0 (lit (3 / 100)) 100) = .ok s ∧
      s.k = (if ltb (acc 0 (lit (3 / 100) : α) 100) (lit 3) then 101 else 100) ∧ Tracks P (lit (3 / 100)) 0 x0 100 s := by
  obtain ⟨r1, r2⟩ := rounds_float (α := α) F hu (q := 3 / 100) (c := 3) (K := 100) (by norm_num) (by norm_num) (by norm_num) (by norm_num)
    (by norm_num)
  refine mpcLoop_tracks (by norm_num) ?_ ?_
    (fun k _ => solves_std F hu (hc k).1 (fun h => by rw [(hc k).2.2] at h; cases h) (hc k).2.1 _ _) ?_
    (zeroInputs_dims _ _ _ _).1 (zeroInputs_dims _ _ _ _).2
  · intro k hk
    by_cases h : k < 100
    · exact r1 k h
    · split at hk
      · rename_i h'
        obtain rfl : k = 100 := by omega
        exact h'
      · omega
  · split
    · exact r2
    · rename_i h; simpa using h
  · intro k hk
    have hk' : k ≤ 100 := by split at hk <;> omega
    exact shifts_dim (by norm_num) (fun i => stanceContacts (k + i)) (fun i hi => stance_dims F hu (by omega) hi)
      (fun i hi => by rw [stance_dims F hu (by omega) (by omega)]; congr 1; omega)

/-- **C95**, centroidal motion in double precision: exactly 101 rounds. -/
theorem C95_centroidal_double {L : LLT (Bin 53)} {P : Callbacks 9 (stanceDim (α := Bin 53))}
    (lim : Option ((t : Bin 53) → Vec (stanceDim t) (Bin 53) × Vec (stanceDim t) (Bin 53))) (cfgs : ℕ → Config (Bin 53))
    (hc : ∀ k, StdReg (cfgs k) ∧ (cfgs k).horizon = 100 ∧ (cfgs k).withConstraint = false) (o : Obj 9 (Bin 53)) (x0 : Vec 9 (Bin 53))
    (scr : ℕ → (t : Bin 53) → Scratch 9 (fun i => stanceDim (timeAt t (lit (3 / 100)) i)) (Bin 53)) :
    ∃ s, mpcLoop L P lim (lit (3 / 100)) cfgs scr
        (fun t => shiftDim (stanceDim (t + lit ((100 : ℕ) : ℚ) * lit (3 / 100)))) (lit 3) o 0 x0
        (zeroInputs stanceDim 0 (lit (3 / 100)) 100) = .ok s ∧ s.k = 101 ∧ Tracks P (lit (3 / 100)) 0 x0 100 s := by
  have h := C95_centroidal (floatLaws_bin 53) (by norm_num) (L := L) (P := P) lim cfgs hc o x0 scr
  have hb : ltb (acc (0 : Bin 53) (lit (3 / 100)) 100) (lit 3) = true := by rw [acc_three_hundredths.1]; decide +kernel
  rwa [hb, if_pos rfl] at h

/-- **C95**, bipedal walking: 2000 or 2001 rounds. -/
theorem C95_bipedal (F : FloatLaws α u) (hu : u ≤ 1 / 2 ^ 45) {L : LLT α} {P : Callbacks 2 (fun _ : α => 1)} (cfgs : ℕ → Config α)
    (hc : ∀ k, StdReg (cfgs k) ∧ (cfgs k).horizon = 300 ∧ (cfgs k).withConstraint = false) (o : Obj 2 α) (x0 : Vec 2 α)
    (scr : ℕ → (t : α) → Scratch 2 (fun _ => 1) α) :
    ∃ s, mpcLoop L P none (lit (1 / 100)) cfgs scr (fun _ => shiftRepeat) (lit 20) o 0 x0
        (zeroInputs (fun _ => 1) 0 (lit (1 / 100)) 300) = .ok s ∧
      s.k = (if ltb (acc 0 (lit (1 / 100) : α) 2000) (lit 20) then 2001 else 2000) ∧ Tracks P (lit (1 / 100)) 0 x0 300 s := by
  obtain ⟨r1, r2⟩ := rounds_float (α := α) F hu (q := 1 / 100) (c := 20) (K := 2000) (by norm_num) (by norm_num) (by norm_num) (by norm_num)
    (by norm_num)
  refine mpcLoop_tracks (by norm_num) ?_ ?_
    (fun k _ => solves_std F hu (hc k).1 (fun h => by rw [(hc k).2.2] at h; cases h) (hc k).2.1 _ _)
    (fun k _ => shifts_repeat (by norm_num) (fun _ _ => rfl) _ _) (zeroInputs_dims _ _ _ _).1 (zeroInputs_dims _ _ _ _).2
  · intro k hk
    by_cases h : k < 2000
    · exact r1 k h
    · split at hk
      · rename_i h'
        obtain rfl : k = 2000 := by omega
        exact h'
      · omega
  · split
    · exact r2
    · rename_i h; simpa using h

/-- **C95**, bipedal walking in double precision: exactly 2000 rounds (the accumulated errors have the other sign by then). -/
theorem C95_bipedal_double {L : LLT (Bin 53)} {P : Callbacks 2 (fun _ : Bin 53 => 1)} (cfgs : ℕ → Config (Bin 53))
    (hc : ∀ k, StdReg (cfgs k) ∧ (cfgs k).horizon = 300 ∧ (cfgs k).withConstraint = false) (o : Obj 2 (Bin 53)) (x0 : Vec 2 (Bin 53))
    (scr : ℕ → (t : Bin 53) → Scratch 2 (fun _ => 1) (Bin 53)) :
    ∃ s, mpcLoop L P none (lit (1 / 100)) cfgs scr (fun _ => shiftRepeat) (lit 20) o 0 x0
        (zeroInputs (fun _ => 1) 0 (lit (1 / 100)) 300) = .ok s ∧ s.k = 2000 ∧ Tracks P (lit (1 / 100)) 0 x0 300 s := by
  have h := C95_bipedal (floatLaws_bin 53) (by norm_num) (L := L) (P := P) cfgs hc o x0 scr
  have hb : ltb (acc (0 : Bin 53) (lit (1 / 100)) 2000) (lit 20) = false := by rw [acc_hundredth.2.2.2]; decide +kernel
  rwa [hb, if_neg (by simp)] at h

/-- `inputDim` of the vertical motion example without the shift by `epsilon_t`. -/
def plainDim (t : α) : ℕ :=
  if ltb (lit 2) t && ltb t (lit 3) then 2 else if ltb (lit (9 / 2)) t && ltb t (lit 5) then 0 else 1

/-- **C95** The shift by `epsilon_t` is needed: without it the same loop throws `std::runtime_error` in double precision, for
every cost, dynamics, input limits, factorisation and initial state.  The contact starting at 2.0 s is step 200 of the first
plan, where `0 + 200 * 0.01` is exactly 2; in round 34 the same step is at `t + 166 * 0.01`, rounded to the next number above 2. -/
theorem C95_needs_shift {L : LLT (Bin 53)} {P : Callbacks 2 (plainDim (α := Bin 53))}
    (lims : (t : Bin 53) → Vec (plainDim t) (Bin 53) × Vec (plainDim t) (Bin 53)) (cfgs : ℕ → Config (Bin 53))
    (hc : ∀ k, StdReg (cfgs k) ∧ (cfgs k).horizon = 300) (o : Obj 2 (Bin 53)) (x0 : Vec 2 (Bin 53))
    (scr : ℕ → (t : Bin 53) → Scratch 2 (fun i => plainDim (timeAt t (lit (1 / 100)) i)) (Bin 53)) :
    mpcLoop L P (some lims) (lit (1 / 100)) cfgs scr
        (fun t => shiftDim (plainDim (t + lit ((300 : ℕ) : ℚ) * lit (1 / 100)))) (lit 10) o 0 x0
        (zeroInputs plainDim 0 (lit (1 / 100)) 300) = .runtimeError := by
  refine mpcLoop_mismatch (K := 34) (i := 166) (by norm_num) ?_
    (fun k _ => solves_std (floatLaws_bin 53) (by norm_num) (hc k).1 (fun _ => rfl) (hc k).2 _ _)
    (fun t us h => shiftDim_keeps (by norm_num) _ h) (by decide +kernel)
  intro k hk
  exact (rounds_float (floatLaws_bin 53) (by norm_num) (q := 1 / 100) (c := 10) (K := 1000) (by norm_num) (by norm_num) (by norm_num)
    (by norm_num) (by norm_num)).1 k (by omega)

/-- **C95**, the horizons `static_cast<int>(horizon_duration / dt)` of the tests and nodes are the intended ones: the rounded
quotients are exactly 300, 100, 200 and 400. -/
theorem C95_horizons : (lit 3 : Bin 53) / lit (1 / 100) = lit 300 ∧ (lit 3 : Bin 53) / lit (3 / 100) = lit 100 ∧
    (lit 2 : Bin 53) / lit (1 / 100) = lit 200 ∧ (lit 4 : Bin 53) / lit (1 / 100) = lit 400 := by
  decide +kernel

/-- Not every choice of the two parameters is as lucky: 0.3 / 0.1 is less than 3 and would be truncated to 2 steps. -/
example : ltb ((lit (3 / 10) : Bin 53) / lit (1 / 10)) (lit 3) = true := by decide +kernel

end Problems

end Nmpc
