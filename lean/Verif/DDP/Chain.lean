import Verif.DDP.Stage
import Mathlib.Algebra.BigOperators.Fin
import Mathlib.Algebra.BigOperators.Intervals

/-!
# What a successful backward pass computes (exact arithmetic)
-/

namespace Nmpc.DDP

set_option linter.unusedSectionVars false

open Matrix Finset

variable {n : ℕ} {m : ℕ → ℕ} {L : LLT ℝ} {N : ℕ} {cfg : Config ℝ} {S : Stages n m ℝ}

/-- The `Q` quantities of stage `j` given the value functions `V`. -/
noncomputable def Qat (cfg : Config ℝ) (lambda : ℝ) (d : Derivs n m ℝ) (V : ℕ → VDeriv n ℝ) (j : ℕ) : QData n (m j) ℝ :=
  calcQ cfg lambda (d.F j) (d.L j) (V (j + 1))

/-- `V`, `g` satisfy the backward recursion below stage `i`. -/
structure Chain (L : LLT ℝ) (N : ℕ) (cfg : Config ℝ) (S : Stages n m ℝ) (c : Ctrl n m ℝ) (d : Derivs n m ℝ)
    (lambda : ℝ) (i : ℕ) (V : ℕ → VDeriv n ℝ) (g : Gains n m ℝ) : Prop where
  value : ∀ j < i, V j = updateV (Qat cfg lambda d V j) (g.k j) (g.K j)
  gain : ∀ j < i, ∃ g' : Gains n m ℝ, (∀ j' > j, g'.k j' = g.k j') ∧
    stageGains L N cfg S c g' j (Qat cfg lambda d V j) = .ok (some (g.k j, g.K j))

theorem bwLoop_chain {c : Ctrl n m ℝ} {d : Derivs n m ℝ} {lambda : ℝ} {i : ℕ} {s b : BwState n m ℝ}
    (h : bwLoop L N cfg S c d lambda i s = .ok (true, b)) :
    ∃ V : ℕ → VDeriv n ℝ, V i = s.V ∧ (∀ j, i ≤ j → b.gains.k j = s.gains.k j ∧ b.gains.K j = s.gains.K j) ∧
      Chain L N cfg S c d lambda i V b.gains ∧
      b.dV0 = s.dV0 + ∑ j ∈ range i, b.gains.k j ⬝ᵥ (Qat cfg lambda d V j).Qu ∧
      b.dV1 = s.dV1 + ∑ j ∈ range i, 1 / 2 * (b.gains.k j ⬝ᵥ (Qat cfg lambda d V j).Quu *ᵥ b.gains.k j) := by
  induction i generalizing s with
  | zero =>
    cases h
    exact ⟨fun _ => b.V, rfl, fun _ _ => ⟨rfl, rfl⟩, ⟨by simp, by simp⟩, by simp, by simp⟩
  | succ i ih =>
    unfold bwLoop bwStage at h
    split at h
    · cases h
    · dsimp only at h
      rcases stageGains_kind (L := L) (N := N) (cfg := cfg) (S := S) c s.gains i
        (calcQ cfg lambda (d.F i) (d.L i) s.V) with ⟨r, hr⟩ | ⟨hr, _⟩ | ⟨hr, _⟩
      · rw [hr] at h
        cases r with
        | none => cases h
        | some r =>
          obtain ⟨kv, K⟩ := r
          obtain ⟨V, h1, h2, h3, h4, h5⟩ := ih h
          have hk : b.gains.k i = kv := by rw [(h2 i le_rfl).1]; simp
          have hK : b.gains.K i = K := by rw [(h2 i le_rfl).2]; simp
          have hQ : ∀ j, j < i → Qat cfg lambda d (Function.update V (i + 1) s.V) j = Qat cfg lambda d V j := by
            intro j hj
            unfold Qat; rw [Function.update_of_ne (by omega)]
          have hQi : Qat cfg lambda d (Function.update V (i + 1) s.V) i = calcQ cfg lambda (d.F i) (d.L i) s.V := by
            unfold Qat; rw [Function.update_self]
          refine ⟨Function.update V (i + 1) s.V, by simp, ?_, ⟨?_, ?_⟩, ?_, ?_⟩
          · intro j hj
            have := h2 j (by omega)
            rw [this.1, this.2]
            dsimp only
            rw [Function.update_of_ne (by omega), Function.update_of_ne (by omega)]
            exact ⟨rfl, rfl⟩
          · intro j hj
            rw [Function.update_of_ne (by omega)]
            rcases Nat.lt_succ_iff_lt_or_eq.1 hj with hj | rfl
            · rw [hQ j hj]; exact h3.value j hj
            · rw [hQi, hk, hK]; exact h1
          · intro j hj
            rcases Nat.lt_succ_iff_lt_or_eq.1 hj with hj | rfl
            · rw [hQ j hj]; exact h3.gain j hj
            · rw [hQi, hk, hK]
              refine ⟨s.gains, ?_, hr⟩
              intro j' hj'
              rw [(h2 j' (by omega)).1]
              dsimp only
              rw [Function.update_of_ne (by omega)]
          · rw [h4, sum_range_succ, hQi, hk, sum_congr rfl fun j hj => by rw [← hQ j (mem_range.1 hj)]]
            simp only [dot_real]; ring
          · rw [h5, sum_range_succ, hQi, hk, sum_congr rfl fun j hj => by rw [← hQ j (mem_range.1 hj)]]
            simp only [dot_real, mulVec_real, lit_real]; push_cast; ring
      · rw [hr] at h; cases h
      · rw [hr] at h; cases h

/-- A successful backward pass started from the terminal value function. -/
theorem backwardPass_chain {s : Solver n m ℝ} {b : BwState n m ℝ} (h : backwardPass L N cfg S s = .ok (true, b)) :
    ∃ V : ℕ → VDeriv n ℝ, V N = s.derivs.V ∧ Chain L N cfg S s.ctrl s.derivs s.lambda N V b.gains ∧
      b.dV0 = ∑ j ∈ range N, b.gains.k j ⬝ᵥ (Qat cfg s.lambda s.derivs V j).Qu ∧
      b.dV1 = ∑ j ∈ range N, 1 / 2 * (b.gains.k j ⬝ᵥ (Qat cfg s.lambda s.derivs V j).Quu *ᵥ b.gains.k j) := by
  obtain ⟨V, h1, _, h3, h4, h5⟩ := bwLoop_chain h
  exact ⟨V, h1, h3, by simpa using h4, by simpa using h5⟩

variable {c : Ctrl n m ℝ} {d : Derivs n m ℝ} {lambda : ℝ} {V : ℕ → VDeriv n ℝ} {g : Gains n m ℝ}

theorem Chain.symm (h : Chain L N cfg S c d lambda N V g) (hV : (V N).Vxx.IsSymm) {j : ℕ} (hj : j ≤ N) :
    (V j).Vxx.IsSymm := by
  rcases Nat.lt_or_eq_of_le hj with hj | rfl
  · rw [h.value j hj]; exact updateV_symm _ _ _
  · exact hV

theorem Chain.symmQuu (h : Chain L N cfg S c d lambda N V g) (hV : (V N).Vxx.IsSymm) {j : ℕ} (hj : j < N)
    (hL : (d.L j).Luu.IsSymm) : (Qat cfg lambda d V j).Quu.IsSymm :=
  calcQ_Quu_symm (h.symm hV hj) hL

/-- The dynamics are affine and the costs quadratic, and `d` holds their exact derivatives along `c`. -/
structure ExactModel (N : ℕ) (S : Stages n m ℝ) (c : Ctrl n m ℝ) (d : Derivs n m ℝ) : Prop where
  dyn : ∀ i < N, ∀ dx du, S.f i (c.x i + dx) (c.u i + du) = S.f i (c.x i) (c.u i) + ((d.F i).Fx *ᵥ dx + (d.F i).Fu *ᵥ du)
  run : ∀ i < N, ∀ dx du, S.l i (c.x i + dx) (c.u i + du) = S.l i (c.x i) (c.u i) + (d.L i).val dx du
  term : ∀ dx, S.φ (c.x N + dx) = S.φ (c.x N) + d.V.val dx
  symmL : ∀ i < N, (d.L i).Luu.IsSymm
  symmV : d.V.Vxx.IsSymm

theorem totalCost_real (N : ℕ) (c : Ctrl n m ℝ) : totalCost N c = ∑ i ∈ range N, c.cost i + c.cost N := by
  rw [totalCost, sum_real, Fin.sum_univ_eq_sum_range (fun i => c.cost i) (N + 1), sum_range_succ]

/-- Deviation of the input of `c'` from the affine policy around `c`. -/
noncomputable def polErr (c c' : Ctrl n m ℝ) (g : Gains n m ℝ) (j : ℕ) : Vec (m j) ℝ :=
  c'.u j - c.u j - g.k j - g.K j *ᵥ (c'.x j - c.x j)

/-- The cost difference between two trajectories of a linear-quadratic problem, in terms of the quantities of a
backward pass along the first one. -/
theorem lq_identity (hE : ExactModel N S c d) (hC : Chain L N cfg S c d lambda N V g) (hV : V N = d.V)
    {x0 : Vec n ℝ} {c' : Ctrl n m ℝ} (hc : Consistent N S x0 c) (hc' : Consistent N S x0 c') :
    totalCost N c' - totalCost N c =
      ∑ j ∈ range N, (g.k j ⬝ᵥ (Qat cfg lambda d V j).Qu + 1 / 2 * (g.k j ⬝ᵥ (Qat cfg lambda d V j).Quu *ᵥ g.k j)) +
      ∑ j ∈ range N,
        (polErr c c' g j ⬝ᵥ ((Qat cfg lambda d V j).Qu + (Qat cfg lambda d V j).Quu *ᵥ g.k j +
            ((Qat cfg lambda d V j).Qux *ᵥ (c'.x j - c.x j) +
              (Qat cfg lambda d V j).Quu *ᵥ (g.K j *ᵥ (c'.x j - c.x j)))) +
          1 / 2 * (polErr c c' g j ⬝ᵥ (Qat cfg lambda d V j).Quu *ᵥ polErr c c' g j)) := by
  have hVs : (V N).Vxx.IsSymm := by rw [hV]; exact hE.symmV
  have hstep : ∀ j ∈ range N, c'.cost j - c.cost j =
      ((V j).val (c'.x j - c.x j) - (V (j + 1)).val (c'.x (j + 1) - c.x (j + 1))) +
      (g.k j ⬝ᵥ (Qat cfg lambda d V j).Qu + 1 / 2 * (g.k j ⬝ᵥ (Qat cfg lambda d V j).Quu *ᵥ g.k j)) +
      (polErr c c' g j ⬝ᵥ ((Qat cfg lambda d V j).Qu + (Qat cfg lambda d V j).Quu *ᵥ g.k j +
            ((Qat cfg lambda d V j).Qux *ᵥ (c'.x j - c.x j) +
              (Qat cfg lambda d V j).Quu *ᵥ (g.K j *ᵥ (c'.x j - c.x j)))) +
          1 / 2 * (polErr c c' g j ⬝ᵥ (Qat cfg lambda d V j).Quu *ᵥ polErr c c' g j)) := by
    intro j hj
    have hj := mem_range.1 hj
    have hx : c'.x j = c.x j + (c'.x j - c.x j) := by abel
    have hu : c'.u j = c.u j + (c'.u j - c.u j) := by abel
    have h1 : c'.x (j + 1) - c.x (j + 1) =
        (d.F j).Fx *ᵥ (c'.x j - c.x j) + (d.F j).Fu *ᵥ (c'.u j - c.u j) := by
      rw [hc'.step j hj, hc.step j hj]
      conv_lhs => rw [hx, hu, hE.dyn j hj]
      abel
    have h2 : c'.cost j - c.cost j = (d.L j).val (c'.x j - c.x j) (c'.u j - c.u j) := by
      rw [hc'.run j hj, hc.run j hj]
      conv_lhs => rw [hx, hu, hE.run j hj]
      ring
    have h3 := calcQ_val (cfg := cfg) (lambda := lambda) (d.F j) (d.L j) (V (j + 1)) (hC.symm hVs hj)
      (c'.x j - c.x j) (c'.u j - c.u j)
    have h4 : c'.u j - c.u j = g.k j + g.K j *ᵥ (c'.x j - c.x j) + polErr c c' g j := by
      unfold polErr; abel
    have h5 := updateV_val (Qat cfg lambda d V j) (hC.symmQuu hVs hj (hE.symmL j hj)) (g.k j) (g.K j)
      (c'.x j - c.x j) (polErr c c' g j)
    rw [← h4, ← hC.value j hj] at h5
    have h6 : (Qat cfg lambda d V j).val (c'.x j - c.x j) (c'.u j - c.u j) = _ := h3
    rw [h2, h1]
    linarith
  have hterm : c'.cost N - c.cost N = (V N).val (c'.x N - c.x N) := by
    have hx : c'.x N = c.x N + (c'.x N - c.x N) := by abel
    rw [hc'.term, hc.term]
    conv_lhs => rw [hx, hE.term]
    rw [hV]; ring
  have h0 : (V 0).val (c'.x 0 - c.x 0) = 0 := by
    rw [hc'.start, hc.start]; simp [VDeriv.val]
  rw [totalCost_real, totalCost_real]
  have hs : ∑ j ∈ range N, c'.cost j - ∑ j ∈ range N, c.cost j = ∑ j ∈ range N, (c'.cost j - c.cost j) := by
    rw [sum_sub_distrib]
  rw [show ∑ i ∈ range N, c'.cost i + c'.cost N - (∑ i ∈ range N, c.cost i + c.cost N) =
    (∑ i ∈ range N, c'.cost i - ∑ i ∈ range N, c.cost i) + (c'.cost N - c.cost N) by ring, hs, sum_congr rfl hstep, hterm]
  simp only [sum_add_distrib]
  rw [sum_range_sub']
  rw [h0]
  ring

end Nmpc.DDP
