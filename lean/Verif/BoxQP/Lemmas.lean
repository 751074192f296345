import Verif.BoxQP.Model

/-!
# Helper lemmas about the BoxQP model
-/

set_option linter.unusedSectionVars false

namespace Nmpc.BoxQP

variable {α : Type} [Add α] [Sub α] [Mul α] [Div α] [Neg α] [Zero α] [One α] [FOps α]

section Step
variable {n : ℕ} (L : LLT α) (c : Config α) (a : Args n α)

/-- Clamped flags at the current iterate. -/
def flagsAt (s : State n α) : Fin n → Bool := clampedFlags a s.x (gradient a s.x)

/-- Free indices at the current iterate. -/
def freeAt (s : State n α) : List (Fin n) := idxs fun i => !flagsAt a s i

/-- Is the factorisation recomputed? -/
def refactorAt (s : State n α) : Bool :=
  decide (s.iter = 1) || (List.finRange n).any fun i => flagsAt a s i != s.clamped i

/-- The stored factorisation after line 241. -/
def lltAt (s : State n α) : Option (Σ k : ℕ, Mat k k α) :=
  if refactorAt a s then some ⟨(freeAt a s).length, subMat a.H (freeAt a s) (freeAt a s)⟩ else s.llt

/-- The case distinction made by one iteration of the main loop. -/
inductive StepOut (s : State n α) : State n α ⊕ Res (State n α) → Prop
  | rel (h1 : 1 < s.iter)
      (h2 : ltb (s.oldObj - s.obj) (c.relImproveThre * FOps.abs s.oldObj) = true) :
      StepOut s (.inr (.ok { s with retval := 4, trace := s.trace ++ [Trace.new n s.iter] }))
  | all (h : ∀ i, flagsAt a s i = true) :
      StepOut s (.inr (.ok { s with
        oldObj := s.obj, clamped := flagsAt a s, free := freeAt a s, retval := 6,
        trace := s.trace ++ [Trace.new n s.iter] }))
  | fail (hn : ¬ ∀ i, flagsAt a s i = true) (hr : refactorAt a s = true)
      (h : L.ok (subMat a.H (freeAt a s) (freeAt a s)) = false) :
      StepOut s (.inr (.ok { s with
        oldObj := s.obj, clamped := flagsAt a s, free := freeAt a s, llt := lltAt a s, retval := -1,
        trace := s.trace ++ [Trace.new n s.iter] }))
  | grad (hn : ¬ ∀ i, flagsAt a s i = true)
      (hok : refactorAt a s = true → L.ok (subMat a.H (freeAt a s) (freeAt a s)) = true)
      (h : ltb (freeGradNorm (gradient a s.x) (freeAt a s)) (c.gradThre * c.gradThre) = true)
      (fn : ℕ) :
      StepOut s (.inr (.ok { s with
        oldObj := s.obj, clamped := flagsAt a s, free := freeAt a s, llt := lltAt a s, factNum := fn,
        retval := 5, trace := s.trace ++ [Trace.new n s.iter] }))
  | ub (hn : ¬ ∀ i, flagsAt a s i = true)
      (hok : refactorAt a s = true → L.ok (subMat a.H (freeAt a s) (freeAt a s)) = true)
      (h : searchDirFree L a s.x (lltAt a s) (freeAt a s) (idxs (flagsAt a s)) = none) :
      StepOut s (.inr .ub)
  | ascent (hn : ¬ ∀ i, flagsAt a s i = true)
      (hok : refactorAt a s = true → L.ok (subMat a.H (freeAt a s) (freeAt a s)) = true)
      (hg : ltb (freeGradNorm (gradient a s.x) (freeAt a s)) (c.gradThre * c.gradThre) = false)
      (dirFree) (hd : searchDirFree L a s.x (lltAt a s) (freeAt a s) (idxs (flagsAt a s)) = some dirFree)
      (h : ltb (lit (1 / 10 ^ 10))
        (FOps.dot (scatter (freeAt a s) dirFree) (gradient a s.x)) = true) (fn : ℕ) :
      StepOut s (.inr (.ok { s with
        oldObj := s.obj, clamped := flagsAt a s, free := freeAt a s, llt := lltAt a s, factNum := fn,
        retval := -2, trace := s.trace ++ [Trace.new n s.iter] }))
  | diverge (dirFree)
      (hg : ltb (freeGradNorm (gradient a s.x) (freeAt a s)) (c.gradThre * c.gradThre) = false)
      (hok : refactorAt a s = true → L.ok (subMat a.H (freeAt a s) (freeAt a s)) = true)
      (hd : searchDirFree L a s.x (lltAt a s) (freeAt a s) (idxs (flagsAt a s)) = some dirFree)
      (hl : lineSearch c a s.x (scatter (freeAt a s) dirFree) s.obj
        (FOps.dot (scatter (freeAt a s) dirFree) (gradient a s.x)) s.retval = none) :
      StepOut s (.inr .diverge)
  | maxIter (hn : ¬ ∀ i, flagsAt a s i = true)
      (hok : refactorAt a s = true → L.ok (subMat a.H (freeAt a s) (freeAt a s)) = true)
      (hg : ltb (freeGradNorm (gradient a s.x) (freeAt a s)) (c.gradThre * c.gradThre) = false)
      (dirFree) (hd : searchDirFree L a s.x (lltAt a s) (freeAt a s) (idxs (flagsAt a s)) = some dirFree)
      (hsd : ltb (lit (1 / 10 ^ 10))
        (FOps.dot (scatter (freeAt a s) dirFree) (gradient a s.x)) = false)
      (ls) (hl : lineSearch c a s.x (scatter (freeAt a s) dirFree) s.obj
        (FOps.dot (scatter (freeAt a s) dirFree) (gradient a s.x)) s.retval = some ls)
      (hit : (s.iter : ℤ) = c.maxIter) (tr : Trace n α) (htr : tr.iter = s.iter)
      (htr' : (tr.x = s.x ∧ tr.searchDir = scatter (freeAt a s) dirFree) ∧ tr.obj = s.obj ∧ tr.stepNum = ls.stepNum) (fn : ℕ) :
      StepOut s (.inr (.ok
        { x := ls.xc, obj := ls.objc, oldObj := s.obj, clamped := flagsAt a s, iter := s.iter,
          factNum := fn, llt := lltAt a s, free := freeAt a s, retval := 1, trace := s.trace ++ [tr] }))
  | next (hn : ¬ ∀ i, flagsAt a s i = true)
      (hok : refactorAt a s = true → L.ok (subMat a.H (freeAt a s) (freeAt a s)) = true)
      (hg : ltb (freeGradNorm (gradient a s.x) (freeAt a s)) (c.gradThre * c.gradThre) = false)
      (dirFree) (hd : searchDirFree L a s.x (lltAt a s) (freeAt a s) (idxs (flagsAt a s)) = some dirFree)
      (hsd : ltb (lit (1 / 10 ^ 10))
        (FOps.dot (scatter (freeAt a s) dirFree) (gradient a s.x)) = false)
      (ls) (hl : lineSearch c a s.x (scatter (freeAt a s) dirFree) s.obj
        (FOps.dot (scatter (freeAt a s) dirFree) (gradient a s.x)) s.retval = some ls)
      (hit : (s.iter : ℤ) ≠ c.maxIter) (tr : Trace n α) (htr : tr.iter = s.iter)
      (htr' : (tr.x = s.x ∧ tr.searchDir = scatter (freeAt a s) dirFree) ∧ tr.obj = s.obj ∧ tr.stepNum = ls.stepNum) (fn : ℕ) :
      StepOut s (.inl
        { x := ls.xc, obj := ls.objc, oldObj := s.obj, clamped := flagsAt a s, iter := s.iter + 1,
          factNum := fn, llt := lltAt a s, free := freeAt a s, retval := ls.retval,
          trace := s.trace ++ [tr] })

theorem mainStep_out (s : State n α) : StepOut L c a s (mainStep L c a s) := by
  rw [mainStep]
  split
  · rename_i h
    rw [Bool.and_eq_true] at h
    exact .rel (by simpa using h.1) h.2
  extract_lets oldObj grad clamped clampedIdx free refactor llt factNum
  have hall : ((List.finRange n).all clamped = true) ↔ ∀ i, flagsAt a s i = true := by
    simp [List.all_eq_true, flagsAt, clamped, grad]
  split
  · rename_i h
    exact .all (hall.1 h)
  rename_i hna
  have hn := fun h => hna (hall.2 h)
  split
  · rename_i h
    rw [Bool.and_eq_true, Bool.not_eq_true'] at h
    exact .fail hn h.1 h.2
  rename_i hnf
  have hok : refactorAt a s = true → L.ok (subMat a.H (freeAt a s) (freeAt a s)) = true := by
    intro h
    rw [Bool.and_eq_true, Bool.not_eq_true'] at hnf
    by_contra h'
    exact hnf ⟨h, eq_false_of_ne_true h'⟩
  split
  · rename_i h
    exact .grad hn hok h factNum
  rename_i hg
  have hg := eq_false_of_ne_true hg
  split
  · rename_i h
    exact .ub hn hok h
  rename_i dirFree hd
  extract_lets dir sdg
  split
  · rename_i h
    exact .ascent hn hok hg dirFree hd h factNum
  rename_i hsd
  have hsd := eq_false_of_ne_true hsd
  split
  · rename_i h
    exact .diverge dirFree hg hok hd h
  rename_i ls hl
  extract_lets tr s'
  split
  · rename_i h
    exact .maxIter hn hok hg dirFree hd hsd ls hl h tr rfl ⟨⟨rfl, rfl⟩, rfl, rfl⟩ factNum
  · rename_i h
    exact .next hn hok hg dirFree hd hsd ls hl h tr rfl ⟨⟨rfl, rfl⟩, rfl, rfl⟩ factNum

end Step

/-- Rule for proving facts about the result of `solve`. -/
theorem solve_rule {n : ℕ} {L : LLT α} {c : Config α} {a : Args n α} {o : Obj n α}
    (I : State n α → Prop) (Q : State n α → Prop)
    (h0 : I (initState a o))
    (hI : ∀ s s', I s → mainStep L c a s = .inl s' → I s')
    (hQ : ∀ s s', I s → mainStep L c a s = .inr (.ok s') → Q s')
    {r : Result n α} (hr : solve L c o a = .ok r) : ∃ s, Q s ∧ r = s.result := by
  unfold solve loopR at hr
  cases hl : loopM (mainStep L c a) (initState a o) with
  | none => rw [hl] at hr; cases hr
  | some q =>
    rw [hl] at hr
    have := loopM_invariant I (fun q => ∀ s, q = .ok s → Q s) hI
      (fun s q h1 h2 s' h3 => hQ s s' h1 (by rw [h2, h3])) h0 hl
    cases q with
    | ok s =>
      refine ⟨s, this s rfl, ?_⟩
      simp [Res.map] at hr
      exact hr.symm
    | _ => cases hr

/-- Rule for facts that exclude undefined behaviour. -/
theorem solve_not_ub {n : ℕ} {L : LLT α} {c : Config α} {a : Args n α} {o : Obj n α}
    (I : State n α → Prop)
    (h0 : I (initState a o))
    (hI : ∀ s s', I s → mainStep L c a s = .inl s' → I s')
    (hQ : ∀ s, I s → mainStep L c a s ≠ .inr .ub) : solve L c o a ≠ .ub := by
  intro hr
  unfold solve loopR at hr
  cases hl : loopM (mainStep L c a) (initState a o) with
  | none => rw [hl] at hr; cases hr
  | some q =>
    rw [hl] at hr
    have := loopM_invariant I (fun q => q ≠ .ub) hI
      (fun s q h1 h2 h3 => hQ s h1 (by rw [h2, h3])) h0 hl
    cases q <;> simp [Res.map, Res.bind] at hr this

/-- The line search returns a candidate for its final step, with its objective. -/
theorem lineSearch_candidate {n : ℕ} {c : Config α} {a : Args n α} {x dir : Vec n α} {oldObj sdg : α}
    {rv : ℤ} {ls : LS n α} (h : lineSearch c a x dir oldObj sdg rv = some ls) :
    ls.xc = candidate a x dir ls.step ∧ ls.objc = objective a.H a.g ls.xc ∧
      (ls.retval = rv ∨ ls.retval = 2) := by
  refine loopM_invariant
    (fun s => s.xc = candidate a x dir s.step ∧ s.objc = objective a.H a.g s.xc ∧ s.retval = rv)
    (fun s => s.xc = candidate a x dir s.step ∧ s.objc = objective a.H a.g s.xc ∧
      (s.retval = rv ∨ s.retval = 2)) ?_ ?_ ⟨rfl, rfl, rfl⟩ h
  · intro s s' hs h
    unfold lsStep at h
    split at h
    · dsimp only at h
      split at h
      · cases h
      · cases h; exact ⟨rfl, rfl, hs.2.2⟩
    · cases h
  · intro s s' hs h
    unfold lsStep at h
    split at h
    · dsimp only at h
      split at h
      · cases h; exact ⟨rfl, rfl, .inr rfl⟩
      · cases h
    · cases h; exact ⟨hs.1, hs.2.1, .inl hs.2.2⟩

end Nmpc.BoxQP
