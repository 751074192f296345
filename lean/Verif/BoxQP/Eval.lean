import Verif.BoxQP.Model

/-!
# Evaluating concrete BoxQP runs

`loopM` cannot be evaluated by the kernel.  The functions here run the same steps with a bound on the number of loop
iterations; whenever they return a result it is the result of the unbounded model.  Used only for concrete examples.
-/

namespace Nmpc

/-- `loopM` with a bound on the number of iterations. -/
def loopF {σ ρ : Type} (step : σ → σ ⊕ ρ) : ℕ → σ → Option ρ
  | 0, _ => none
  | k + 1, s => match step s with
    | .inl s' => loopF step k s'
    | .inr r => some r

theorem loopF_eq {σ ρ : Type} {step : σ → σ ⊕ ρ} {k : ℕ} {s : σ} {r : ρ} (h : loopF step k s = some r) :
    loopM step s = some r := by
  induction k generalizing s with
  | zero => cases h
  | succ k ih =>
    unfold loopF at h
    split at h
    · rename_i s' h'; rw [loopM_inl h']; exact ih h
    · rename_i r' h'; cases h; exact loopM_inr h'

/-- `loopF` for a step that is only evaluated within a bound itself. -/
def loopFO {σ ρ : Type} (step : σ → Option (σ ⊕ ρ)) : ℕ → σ → Option ρ
  | 0, _ => none
  | k + 1, s => match step s with
    | some (.inl s') => loopFO step k s'
    | some (.inr r) => some r
    | none => none

theorem loopFO_eq {σ ρ : Type} {step : σ → σ ⊕ ρ} {stepO : σ → Option (σ ⊕ ρ)}
    (hs : ∀ s r, stepO s = some r → step s = r) {k : ℕ} {s : σ} {r : ρ} (h : loopFO stepO k s = some r) :
    loopM step s = some r := by
  induction k generalizing s with
  | zero => cases h
  | succ k ih =>
    unfold loopFO at h
    split at h
    · rename_i s' h'; rw [loopM_inl (hs _ _ h')]; exact ih h
    · rename_i r' h'; cases h; exact loopM_inr (hs _ _ h')
    · cases h

namespace BoxQP

variable {α : Type} [Add α] [Sub α] [Mul α] [Div α] [Neg α] [Zero α] [One α] [FOps α]

/-- `mainStep` with a bounded line search. -/
def mainStepF {n : ℕ} (fuel : ℕ) (L : LLT α) (c : Config α) (a : Args n α) (s : State n α) :
    Option (State n α ⊕ Res (State n α)) :=
  let tr0 := s.trace ++ [Trace.new n s.iter]
  if decide (1 < s.iter) && ltb (s.oldObj - s.obj) (c.relImproveThre * FOps.abs s.oldObj) then
    some (.inr (.ok { s with retval := 4, trace := tr0 }))
  else
  let oldObj := s.obj
  let grad := gradient a s.x
  let clamped := clampedFlags a s.x grad
  let clampedIdx := idxs clamped
  let free := idxs fun i => !clamped i
  if (List.finRange n).all clamped then
    some (.inr (.ok { s with oldObj := oldObj, clamped := clamped, free := free, retval := 6, trace := tr0 }))
  else
  let refactor := decide (s.iter = 1) || (List.finRange n).any fun i => clamped i != s.clamped i
  let llt := if refactor then some ⟨free.length, subMat a.H free free⟩ else s.llt
  if refactor && !L.ok (subMat a.H free free) then
    some (.inr (.ok { s with
      oldObj := oldObj, clamped := clamped, free := free, llt := llt, retval := -1, trace := tr0 }))
  else
  let factNum := if refactor then s.factNum + 1 else s.factNum
  if ltb (freeGradNorm grad free) (c.gradThre * c.gradThre) then
    some (.inr (.ok { s with
      oldObj := oldObj, clamped := clamped, free := free, llt := llt, factNum := factNum,
      retval := 5, trace := tr0 }))
  else
  match searchDirFree L a s.x llt free clampedIdx with
  | none => some (.inr .ub)
  | some dirFree =>
  let dir := scatter free dirFree
  let sdg := FOps.dot dir grad
  if ltb (lit (1 / 10 ^ 10)) sdg then
    some (.inr (.ok { s with
      oldObj := oldObj, clamped := clamped, free := free, llt := llt, factNum := factNum,
      retval := -2, trace := tr0 }))
  else
  match loopF (lsStep c a s.x dir oldObj sdg) fuel (lsInit a s.x dir s.retval) with
  | none => none
  | some ls =>
  let tr : Trace n α :=
    { iter := s.iter, x := s.x, obj := s.obj, searchDir := dir, clamped := clamped,
      factNum := factNum, stepNum := ls.stepNum }
  let s' : State n α :=
    { x := ls.xc, obj := ls.objc, oldObj := oldObj, clamped := clamped, iter := s.iter,
      factNum := factNum, llt := llt, free := free, retval := ls.retval,
      trace := s.trace ++ [tr] }
  if (s.iter : ℤ) = c.maxIter then some (.inr (.ok { s' with retval := 1 }))
  else some (.inl { s' with iter := s.iter + 1 })

theorem mainStepF_eq {n : ℕ} {fuel : ℕ} {L : LLT α} {c : Config α} {a : Args n α} {s : State n α}
    {r : State n α ⊕ Res (State n α)} (h : mainStepF fuel L c a s = some r) : mainStep L c a s = r := by
  unfold mainStepF at h
  unfold mainStep
  dsimp only at h ⊢
  split at h
  · rename_i h1; rw [if_pos h1]; cases h; rfl
  rename_i h1; rw [if_neg h1]
  split at h
  · rename_i h2; rw [if_pos h2]; cases h; rfl
  rename_i h2; rw [if_neg h2]
  split at h
  · rename_i h3; rw [if_pos h3]; cases h; rfl
  rename_i h3; rw [if_neg h3]
  split at h
  · rename_i h4; rw [if_pos h4]; cases h; rfl
  rename_i h4; rw [if_neg h4]
  split at h
  · rename_i h5; rw [h5]; cases h; rfl
  rename_i d h5; rw [h5]; dsimp only
  split at h
  · rename_i h6; rw [if_pos h6]; cases h; rfl
  rename_i h6; rw [if_neg h6]
  split at h
  · cases h
  rename_i ls h7
  rw [lineSearch, loopF_eq h7]; dsimp only
  split at h
  · rename_i h8; rw [if_pos h8]; cases h; rfl
  · rename_i h8; rw [if_neg h8]; cases h; rfl

/-- `solve` with bounded loops. -/
def solveF {n : ℕ} (fuel : ℕ) (L : LLT α) (c : Config α) (o : Obj n α) (a : Args n α) : Option (Res (Result n α)) :=
  (loopFO (mainStepF fuel L c a) fuel (initState a o)).map fun r => r.map State.result

theorem solveF_eq {n : ℕ} {fuel : ℕ} {L : LLT α} {c : Config α} {o : Obj n α} {a : Args n α}
    {r : Res (Result n α)} (h : solveF fuel L c o a = some r) : solve L c o a = r := by
  unfold solveF at h
  rw [Option.map_eq_some_iff] at h
  obtain ⟨q, h1, rfl⟩ := h
  have := loopFO_eq (step := mainStep L c a) (fun s r => mainStepF_eq) h1
  unfold solve loopR
  rw [this]

end BoxQP
end Nmpc
