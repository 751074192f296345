import Verif.Float.Cert
import Verif.DDP.Lemmas
import Verif.DDP.Generic

/-!
# Input limits in floating-point arithmetic: lemmas for C98
-/

set_option linter.unusedSectionVars false

namespace Nmpc

variable {α : Type} [Add α] [Sub α] [Mul α] [Div α] [Neg α] [Zero α] [One α] [FOps α] {u : ℝ}

namespace BoxQP

variable {n : ℕ} {L : LLT α} {c : Config α} {o : Obj n α} {a : Args n α} {r : Result n α}

/-- Every result is a clamped vector. -/
theorem result_clamped (h : solve L c o a = .ok r) : ∃ y, r.x = clampBox a.lower a.upper y := by
  obtain ⟨s, hs, rfl⟩ := solve_rule (fun s => ∃ y, s.x = clampBox a.lower a.upper y)
    (fun s => ∃ y, s.x = clampBox a.lower a.upper y) ⟨_, rfl⟩
    (fun s s' hs h => by
      have := mainStep_out L c a s
      rw [h] at this
      cases this with
      | next _ _ _ _ _ _ ls hl => exact ⟨_, (lineSearch_candidate hl).1⟩)
    (fun s s' hs h => by
      have := mainStep_out L c a s
      rw [h] at this
      cases this with
      | maxIter _ _ _ _ _ _ ls hl => exact ⟨_, (lineSearch_candidate hl).1⟩
      | _ => exact hs) h
  exact hs

end BoxQP

/-- A number clamped to (possibly exchanged) limits. -/
theorem clamp_float (F : FloatLaws α u) {lo up y : α} {l h : ℝ} (hl : F.val lo = .fin l) (hh : F.val up = .fin h) :
    F.val (fmax (fmin y up) lo) = .nan ∨ ∃ x, F.val (fmax (fmin y up) lo) = .fin x ∧ l ≤ x ∧ x ≤ max l h := by
  cases hy : F.val y with
  | nan =>
    have h1 : fmin y up = y := by
      unfold fmin; rw [if_neg]; rw [F.ltb_iff, hy, hh]; simp [FVal.Lt]
    have h2 : fmax y lo = y := by
      unfold fmax; rw [if_neg]; rw [F.ltb_iff, hy, hl]; simp [FVal.Lt]
    rw [h1, h2]; exact .inl hy
  | ninf =>
    have h1 : fmin y up = y := by
      unfold fmin; rw [if_neg]; rw [F.ltb_iff, hy, hh]; simp [FVal.Lt]
    have h2 : fmax y lo = lo := by
      unfold fmax; rw [if_pos]; rw [F.ltb_iff, hy, hl]; simp [FVal.Lt]
    rw [h1, h2]; exact .inr ⟨l, hl, le_refl _, le_max_left _ _⟩
  | pinf =>
    have h1 : fmin y up = up := by
      unfold fmin; rw [if_pos]; rw [F.ltb_iff, hy, hh]; simp [FVal.Lt]
    rw [h1, F.fmax_fin hh hl]; exact .inr ⟨_, rfl, le_max_right _ _, by rw [max_comm]⟩
  | fin z =>
    have h1 := F.fmin_fin hy hh
    rw [F.fmax_fin h1 hl]
    refine .inr ⟨_, rfl, le_max_right _ _, ?_⟩
    rw [max_comm]
    exact max_le_max (le_refl _) (min_le_right _ _)

/-- The effect of rounding on one update of an input with limits. -/
theorem update_within {u M e lo hi v l h k a p q w : ℝ} (hu0 : 0 ≤ u) (hu : u ≤ 1 / 2048) (hlh : lo ≤ hi) (hlo : |lo| ≤ M)
    (hhi : |hi| ≤ M) (he : 0 ≤ e) (heM : e ≤ M) (hv : lo - e ≤ v ∧ v ≤ hi + e) (hl : |l - (lo - v)| ≤ u * |lo - v|)
    (hh : |h - (hi - v)| ≤ u * |hi - v|) (hk : l ≤ k ∧ k ≤ max l h) (ha : 0 ≤ a ∧ a ≤ 1) (hp : |p - a * k| ≤ u * |a * k|)
    (hq : |q - (v + p)| ≤ u * |v + p|) (hw : |w - (q + 0)| ≤ u * |q + 0|) :
    lo - (e + 11 * u * M) ≤ w ∧ w ≤ hi + (e + 11 * u * M) := by
  have hM : 0 ≤ M := (abs_nonneg _).trans hlo
  rw [abs_le] at hlo hhi
  have b1 : |lo - v| ≤ 3 * M := abs_le.2 ⟨by linarith [hv.2], by linarith [hv.1]⟩
  have b2 : |hi - v| ≤ 3 * M := abs_le.2 ⟨by linarith [hv.2], by linarith [hv.1]⟩
  have c1 : u * |lo - v| ≤ 3 * (u * M) := by have := mul_le_mul_of_nonneg_left b1 hu0; linarith
  have c2 : u * |hi - v| ≤ 3 * (u * M) := by have := mul_le_mul_of_nonneg_left b2 hu0; linarith
  have huM : 0 ≤ u * M := mul_nonneg hu0 hM
  have huM2 : u * M ≤ M / 2048 := by have := mul_le_mul_of_nonneg_right hu hM; linarith
  obtain ⟨l1, l2⟩ := abs_le.1 (hl.trans c1)
  obtain ⟨h1, h2⟩ := abs_le.1 (hh.trans c2)
  have k1 : lo - v - 3 * (u * M) ≤ k := by linarith [hk.1]
  have k2 : k ≤ hi - v + 3 * (u * M) := hk.2.trans (max_le (by linarith) (by linarith))
  have kb : |k| ≤ 3.01 * M := abs_le.2 ⟨by linarith [(abs_le.1 b1).1], by linarith [(abs_le.1 b2).2]⟩
  have akb : |a * k| ≤ 3.01 * M := by
    rw [abs_mul, abs_of_nonneg ha.1]
    exact (mul_le_of_le_one_left (abs_nonneg k) ha.2).trans kb
  have e1 : u * |a * k| ≤ 3.01 * (u * M) := by have := mul_le_mul_of_nonneg_left akb hu0; linarith
  obtain ⟨p1, p2⟩ := abs_le.1 (hp.trans e1)
  -- v + a k is a convex combination
  have f1 : lo - e - 3 * (u * M) ≤ v + a * k := by
    have h3 : a * (lo - v - 3 * (u * M)) ≤ a * k := mul_le_mul_of_nonneg_left k1 ha.1
    have h4 : (1 - a) * (lo - e) ≤ (1 - a) * v := mul_le_mul_of_nonneg_left hv.1 (by linarith [ha.2])
    have h5 : a * e ≥ 0 := mul_nonneg ha.1 he
    have h6 : a * (u * M) ≤ u * M := mul_le_of_le_one_left huM ha.2
    linarith
  have f2 : v + a * k ≤ hi + e + 3 * (u * M) := by
    have h3 : a * k ≤ a * (hi - v + 3 * (u * M)) := mul_le_mul_of_nonneg_left k2 ha.1
    have h4 : (1 - a) * v ≤ (1 - a) * (hi + e) := mul_le_mul_of_nonneg_left hv.2 (by linarith [ha.2])
    have h5 : a * e ≥ 0 := mul_nonneg ha.1 he
    have h6 : a * (u * M) ≤ u * M := mul_le_of_le_one_left huM ha.2
    linarith
  have g1 : |v + p| ≤ 2.01 * M := abs_le.2 ⟨by linarith, by linarith⟩
  have g2 : u * |v + p| ≤ 2.01 * (u * M) := by have := mul_le_mul_of_nonneg_left g1 hu0; linarith
  obtain ⟨q1, q2⟩ := abs_le.1 (hq.trans g2)
  rw [add_zero] at hw
  have g3 : |q| ≤ 2.02 * M := abs_le.2 ⟨by linarith [(abs_le.1 g1).1], by linarith [(abs_le.1 g1).2]⟩
  have g4 : u * |q| ≤ 2.02 * (u * M) := by have := mul_le_mul_of_nonneg_left g3 hu0; linarith
  obtain ⟨w1, w2⟩ := abs_le.1 (hw.trans g4)
  constructor <;> linarith

/-- Product with differences of equal numbers: zero or NaN. -/
theorem zero_dot {F : FloatLaws α u} {n : ℕ} {row d : Vec n α} {z : α} (hd : ∀ j, ∃ y : α, d j = y - y)
    (h : FVal.Dot u (fun j => F.val (row j)) (fun j => F.val (d j)) (F.val z)) : F.val z = .nan ∨ F.val z = .fin 0 := by
  have hd0 : ∀ j, F.val (d j) = .nan ∨ F.val (d j) = .fin 0 := by
    intro j
    obtain ⟨y, hy⟩ := hd j
    rw [hy]
    have hs := F.sub y y
    cases hv : F.val y with
    | fin r =>
      rw [hv] at hs
      obtain ⟨δ, -, hr⟩ := hs
      right; rw [hr]; simp
    | _ => rw [hv] at hs; exact .inl hs
  by_cases hn : ∃ j, F.val (d j) = .nan
  · obtain ⟨j, hj⟩ := hn
    exact .inl (h.nan j (.inr hj))
  have h0 : ∀ j, F.val (d j) = .fin 0 := fun j => (hd0 j).resolve_left fun h => hn ⟨j, h⟩
  cases hz : F.val z with
  | nan => exact .inl rfl
  | ninf =>
    exfalso
    obtain ⟨j, hj⟩ := h.ninf hz
    rw [h0 j] at hj
    cases hr : F.val (row j) <;> rw [hr] at hj <;> simp [FVal.Mul, FVal.InfMul, FVal.Near] at hj
  | pinf =>
    exfalso
    obtain ⟨j, hj⟩ := h.pinf hz
    rw [h0 j] at hj
    cases hr : F.val (row j) <;> rw [hr] at hj <;> simp [FVal.Mul, FVal.InfMul, FVal.Near] at hj
  | fin r =>
    choose x hx using fun j => (h.finite r hz j).1
    obtain ⟨δ, -, hr⟩ := h.fin x (fun _ => 0) hx h0
    rw [hz] at hr
    right; rw [hr]; simp

namespace DDP

variable {n : ℕ} {m : ℕ → ℕ} {L : LLT α} {N : ℕ} {cfg : Config α} {S : Stages n m α}

/-- After a successful backward pass every gain is that of its stage. -/
theorem bwLoop_gain {c : Ctrl n m α} {d : Derivs n m α} {lambda : α} {i : ℕ} {s b : BwState n m α}
    (h : bwLoop L N cfg S c d lambda i s = .ok (true, b)) :
    (∀ j, i ≤ j → b.gains.k j = s.gains.k j ∧ b.gains.K j = s.gains.K j) ∧
    ∀ j < i, ∃ g Q, stageGains L N cfg S c g j Q = .ok (some (b.gains.k j, b.gains.K j)) := by
  induction i generalizing s with
  | zero =>
    cases h
    exact ⟨fun _ _ => ⟨rfl, rfl⟩, fun _ h => absurd h (by omega)⟩
  | succ i ih =>
    unfold bwLoop bwStage at h
    split at h
    · cases h
    · dsimp only at h
      rcases stageGains_kind (L := L) (N := N) (cfg := cfg) (S := S) c s.gains i
        (calcQ cfg lambda (d.F i) (d.L i) s.V) with ⟨r, hr⟩ | ⟨hr, _⟩ | ⟨hr, _⟩
      · rw [hr] at h
        cases r with
        | none => cases h
        | some r =>
          obtain ⟨kv, K⟩ := r
          obtain ⟨h2, h3⟩ := ih h
          have hk : b.gains.k i = kv := by rw [(h2 i le_rfl).1]; simp
          have hK : b.gains.K i = K := by rw [(h2 i le_rfl).2]; simp
          refine ⟨fun j hj => ?_, fun j hj => ?_⟩
          · have := h2 j (by omega)
            rw [this.1, this.2]
            dsimp only
            rw [Function.update_of_ne (by omega), Function.update_of_ne (by omega)]
            exact ⟨rfl, rfl⟩
          · rcases Nat.lt_succ_iff_lt_or_eq.1 hj with hj | rfl
            · exact h3 j hj
            · rw [hk, hK]; exact ⟨_, _, hr⟩
      · rw [hr] at h; cases h
      · rw [hr] at h; cases h

/-- The feedforward term of a stage with limits is clamped to them. -/
theorem stageGains_clamped {lim : (i : ℕ) → Vec (m i) α × Vec (m i) α} (hw : cfg.withConstraint = true) (hlim : S.lim = some lim)
    {c : Ctrl n m α} {g : Gains n m α} {i : ℕ} {Q : QData n (m i) α} {kv : Vec (m i) α} {K : Mat (m i) n α}
    (h : stageGains L N cfg S c g i Q = .ok (some (kv, K))) (r : Fin (m i)) :
    ∃ y, kv r = fmax (fmin y ((lim i).2 r - c.u i r)) ((lim i).1 r - c.u i r) := by
  unfold stageGains at h
  rw [if_pos (Fin.pos r), if_pos hw, hlim] at h
  dsimp only at h
  rcases constrainedGains_out (L := L) Q (lim i).1 (lim i).2 (c.u i) (initialK N g i) with h' | ⟨q, hq, h'⟩
  · rw [h'.1] at h; cases h
  have hx : kv = q.x := by
    rcases h' with h' | h' | h'
    · rw [h'.2] at h; cases h
    · rw [h'.2.2] at h
      simp only [Res.ok.injEq, Option.some.injEq] at h
      exact (Prod.ext_iff.1 h).1.symm
    · rw [h'.2.2.2] at h
      simp only [Res.ok.injEq, Option.some.injEq] at h
      exact (Prod.ext_iff.1 h).1.symm
  obtain ⟨y, hy⟩ := BoxQP.result_clamped hq
  exact ⟨y r, by rw [hx, hy]; rfl⟩

end DDP

end Nmpc
