import Verif.BoxQP.Props

/-!
# C57: indices outside the free set are at a limit (exact arithmetic)
-/

namespace Nmpc.BoxQP

open Matrix

variable {n : ℕ} {L : LLT ℝ} {c : Config ℝ} {a : Args n ℝ} {o : Obj n ℝ} {r : Result n ℝ}

/-- All indices outside `free` are at one of their limits. -/
def AtLimit (a : Args n ℝ) (free : List (Fin n)) (x : Vec n ℝ) : Prop :=
  ∀ i, i ∉ free → x i = a.lower i ∨ x i = a.upper i

theorem freeAt_atLimit (s : State n ℝ) : AtLimit a (freeAt a s) s.x := by
  intro i hi
  rw [freeAt, mem_idxs] at hi
  have hf : flagsAt a s i = true := by simpa using hi
  simp only [flagsAt, clampedFlags, Bool.or_eq_true, Bool.and_eq_true, eqb_real, ltb_real] at hf
  rcases hf with h | h
  · exact .inl h.1
  · exact .inr h.1

theorem clampBox_fix {l u x : Vec n ℝ} {i : Fin n} (hlu : l i ≤ u i) (h : x i = l i ∨ x i = u i) :
    clampBox l u x i = x i := by
  simp only [clampBox, fmax_real, fmin_real]
  rcases h with h | h <;> rw [h]
  · rw [min_eq_left hlu, max_self]
  · rw [min_self, max_eq_left hlu]

/-- Moving along a direction supported on the free set keeps the other indices at their limits. -/
theorem candidate_atLimit (hlu : ∀ i, a.lower i ≤ a.upper i) (s : State n ℝ) (d : Vec (freeAt a s).length ℝ) (t : ℝ) :
    AtLimit a (freeAt a s) (candidate a s.x (scatter (freeAt a s) d) t) := by
  intro i hi
  have h1 := freeAt_atLimit s i hi
  have h2 : (s.x + smulv t (scatter (freeAt a s) d)) i = s.x i := by
    rw [smulv_real, Pi.add_apply, Pi.smul_apply, scatter_not_mem _ _ hi, smul_zero, add_zero]
  rw [candidate, clampBox_fix (hlu i) (by rw [h2]; exact h1), h2]
  exact h1

/-- **C57** Whatever the return code, every index missing from the stored free indices is exactly at one of its
limits in the returned vector (although, for the codes 1 and 4, the free indices were determined at the previous
iterate).  If the iteration was left at once (before any free set was computed) this cannot happen: the
relative-improvement test is only made from the second iteration on. -/
theorem C57_clamped_at_limit (hlu : ∀ i, a.lower i ≤ a.upper i) (h : solve L c o a = .ok r) :
    ∀ i, i ∉ r.obj.free → r.x i = a.lower i ∨ r.x i = a.upper i := by
  obtain ⟨s, hs, rfl⟩ := solve_rule (fun s : State n ℝ => 1 ≤ s.iter ∧ (1 < s.iter → AtLimit a s.free s.x))
    (fun s => AtLimit a s.free s.x) ⟨le_rfl, fun h => absurd h (by simp [initState])⟩
    (fun s s' hs h => by
      have := mainStep_out L c a s
      rw [h] at this
      cases this with
      | next _ _ _ d _ _ ls hl =>
        refine ⟨by simp, fun _ => ?_⟩
        rw [(lineSearch_candidate hl).1]
        exact candidate_atLimit hlu s d _)
    (fun s s' hs h => by
      have := mainStep_out L c a s
      rw [h] at this
      cases this with
      | rel h1 h2 => exact hs.2 h1
      | maxIter _ _ _ d _ _ ls hl =>
        rw [(lineSearch_candidate hl).1]
        exact candidate_atLimit hlu s d _
      | _ => exact freeAt_atLimit s) h
  exact hs

end Nmpc.BoxQP
