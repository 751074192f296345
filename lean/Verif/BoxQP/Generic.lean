import Verif.BoxQP.Lemmas

/-!
# BoxQP properties that hold in any arithmetic

Nothing is assumed about `+ - * / sqrt …`; the order facts that are needed are listed in the statements.
-/

set_option linter.unusedSectionVars false

namespace Nmpc.BoxQP

variable {α : Type} [Add α] [Sub α] [Mul α] [Div α] [Neg α] [Zero α] [One α] [FOps α]
variable {n : ℕ} {L : LLT α} {c : Config α} {a : Args n α} {o : Obj n α} {r : Result n α}

/-! ## C01 -/

/-- `v` violates no limit: no component is below the lower limit, and no component is above the upper limit
(where the limits are not contradictory). -/
def NoViolation (lower upper v : Vec n α) : Prop :=
  ∀ i, ltb (v i) (lower i) = false ∧
    (ltb (upper i) (lower i) = false → ltb (upper i) (v i) = false)

theorem clampBox_noViolation (hirr : ∀ a : α, ltb a a = false) (l u x : Vec n α) :
    NoViolation l u (clampBox l u x) := by
  have hmax : ∀ b w : α, ltb (fmax b w) w = false := by
    intro b w
    unfold fmax
    split
    · exact hirr _
    · rename_i h; exact eq_false_of_ne_true h
  have hmin : ∀ b w : α, ltb w (fmin b w) = false := by
    intro b w
    unfold fmin
    split
    · exact hirr _
    · rename_i h; exact eq_false_of_ne_true h
  intro i
  refine ⟨hmax _ _, fun hlu => ?_⟩
  show ltb (u i) (fmax (fmin (x i) (u i)) (l i)) = false
  rw [fmax]
  split
  · exact hlu
  · exact hmin _ _

/-- **C01** The vector returned by `solve` violates no limit, whatever the return code.  Only irreflexivity of `<`
is used. -/
theorem C01_result_in_box (hirr : ∀ a : α, ltb a a = false) (h : solve L c o a = .ok r) :
    NoViolation a.lower a.upper r.x := by
  obtain ⟨s, hs, rfl⟩ := solve_rule (fun s => NoViolation a.lower a.upper s.x)
    (fun s => NoViolation a.lower a.upper s.x) (clampBox_noViolation hirr _ _ _)
    (fun s s' hs h => by
      have := mainStep_out L c a s
      rw [h] at this
      cases this with
      | next _ _ _ _ _ _ ls hl =>
        show NoViolation _ _ ls.xc
        rw [(lineSearch_candidate hl).1]
        exact clampBox_noViolation hirr _ _ _)
    (fun s s' hs h => by
      have := mainStep_out L c a s
      rw [h] at this
      cases this with
      | maxIter _ _ _ _ _ _ ls hl =>
        show NoViolation _ _ ls.xc
        rw [(lineSearch_candidate hl).1]
        exact clampBox_noViolation hirr _ _ _
      | _ => exact hs) h
  exact hs

/-! ## C02 -/

/-- Keys of `retstr_` (BoxQP.h 375-383). -/
def retstrKeys : List ℤ := [-2, -1, 0, 1, 2, 3, 4, 5, 6]

/-- **C02** The possible return codes.  The documented codes 0, 2 and 3 are never returned; in particular the
code 2 set by an exhausted line search (BoxQP.h 306) is always overwritten. -/
theorem C02_retval (h : solve L c o a = .ok r) :
    r.obj.retval ∈ ([-2, -1, 1, 4, 5, 6] : List ℤ) := by
  obtain ⟨s, hs, rfl⟩ := solve_rule (fun _ => True)
    (fun s => s.retval ∈ ([-2, -1, 1, 4, 5, 6] : List ℤ)) trivial (fun _ _ _ _ => trivial)
    (fun s s' hs h => by
      have := mainStep_out L c a s
      rw [h] at this
      cases this <;> simp) h
  exact hs

/-- The lookup `retstr_.at(retval_)` after the loop (BoxQP.h 342) never throws. -/
theorem C02_retstr (h : solve L c o a = .ok r) : r.obj.retval ∈ retstrKeys := by
  have := C02_retval h
  simp only [retstrKeys, List.mem_cons, List.not_mem_nil, or_false] at *
  omega

/-! ## C08 -/

theorem idxs_congr {f g : Fin n → Bool} (h : ∀ i, f i = g i) : idxs f = idxs g := by
  rw [funext h]

theorem refactorAt_false {s : State n α} (h : refactorAt a s = false) :
    s.iter ≠ 1 ∧ flagsAt a s = s.clamped := by
  unfold refactorAt at h
  rw [Bool.or_eq_false_iff, List.any_eq_false] at h
  refine ⟨by simpa using h.1, funext fun i => ?_⟩
  simpa using h.2 i (List.mem_finRange i)

/-- The stored factorisation is that of `H` restricted to `free` and the factorisation succeeded. -/
def Coherent (L : LLT α) (a : Args n α) (llt : Option (Σ k : ℕ, Mat k k α)) (free : List (Fin n)) : Prop :=
  llt = some ⟨free.length, subMat a.H free free⟩ ∧ L.ok (subMat a.H free free) = true

/-- Loop invariant for C08. -/
def Inv8 (L : LLT α) (a : Args n α) (s : State n α) : Prop :=
  1 ≤ s.iter ∧ s.free.Pairwise (· < ·) ∧
    (1 < s.iter → s.free = (idxs fun i => !s.clamped i) ∧ Coherent L a s.llt s.free)

theorem idxs_sorted (f : Fin n → Bool) : (idxs f).Pairwise (· < ·) :=
  (List.pairwise_lt_finRange n).filter _

theorem lltAt_coherent {s : State n α} (hs : Inv8 L a s)
    (hok : refactorAt a s = true → L.ok (subMat a.H (freeAt a s) (freeAt a s)) = true) :
    Coherent L a (lltAt a s) (freeAt a s) := by
  cases hr : refactorAt a s with
  | true => exact ⟨by simp [lltAt, hr], hok hr⟩
  | false =>
    obtain ⟨h1, h2⟩ := refactorAt_false hr
    obtain ⟨h3, h4⟩ := hs.2.2 (by have := hs.1; omega)
    have hf : freeAt a s = s.free := by rw [h3]; simp [freeAt, h2]
    rw [hf]
    simpa [lltAt, hr] using h4

theorem searchDirFree_coherent {s : State n α} (hs : Inv8 L a s)
    (hok : refactorAt a s = true → L.ok (subMat a.H (freeAt a s) (freeAt a s)) = true) :
    searchDirFree L a s.x (lltAt a s) (freeAt a s) (idxs (flagsAt a s)) =
      some (smulv (-1) (L.solve (subMat a.H (freeAt a s) (freeAt a s))
        (subVec a.g (freeAt a s) +
          FOps.mulVec (subMat a.H (freeAt a s) (idxs (flagsAt a s))) (subVec s.x (idxs (flagsAt a s)))))
        - subVec s.x (freeAt a s)) := by
  rw [(lltAt_coherent hs hok).1, searchDirFree]
  simp

theorem inv8_init : Inv8 L a (initState a o) :=
  ⟨le_rfl, List.Pairwise.nil, fun h => absurd h (by simp [initState])⟩

theorem inv8_step {s s' : State n α} (hs : Inv8 L a s) (h : mainStep L c a s = .inl s') : Inv8 L a s' := by
  have := mainStep_out L c a s
  rw [h] at this
  cases this with
  | next hn hok =>
    exact ⟨by simp, idxs_sorted _, fun _ => ⟨rfl, lltAt_coherent hs hok⟩⟩

/-- **C08** If the return code is not negative then either no index is free or the stored factorisation is
the (successful) one of `H` restricted to the stored free indices.  The free indices are strictly increasing. -/
theorem C08_factorisation (h : solve L c o a = .ok r) :
    r.obj.free.Pairwise (· < ·) ∧
    (0 ≤ r.obj.retval → r.obj.free = [] ∨ Coherent L a r.obj.llt r.obj.free) := by
  obtain ⟨s, hs, rfl⟩ := solve_rule (Inv8 L a)
    (fun s => s.free.Pairwise (· < ·) ∧
      (0 ≤ s.retval → s.free = [] ∨ Coherent L a s.llt s.free)) inv8_init
    (fun s s' => inv8_step)
    (fun s s' hs h => by
      have := mainStep_out L c a s
      rw [h] at this
      cases this with
      | rel h1 h2 => exact ⟨hs.2.1, fun _ => .inr (hs.2.2 h1).2⟩
      | all hall =>
        refine ⟨idxs_sorted _, fun _ => .inl ?_⟩
        simp [freeAt, idxs, hall]
      | fail => exact ⟨idxs_sorted _, fun h => absurd h (by simp)⟩
      | grad hn hok => exact ⟨idxs_sorted _, fun _ => .inr (lltAt_coherent hs hok)⟩
      | ascent => exact ⟨idxs_sorted _, fun h => absurd h (by simp)⟩
      | maxIter hn hok => exact ⟨idxs_sorted _, fun _ => .inr (lltAt_coherent hs hok)⟩) h
  exact hs

/-- **C08** No execution solves with a factorisation of the wrong size or a null factorisation. -/
theorem C08_no_ub : solve L c o a ≠ .ub :=
  solve_not_ub (Inv8 L a) inv8_init (fun _ _ => inv8_step) (fun s hs h => by
    have := mainStep_out L c a s
    rw [h] at this
    cases this with
    | ub hn hok hd => rw [searchDirFree_coherent hs hok] at hd; cases hd)

/-! ## C03 -/

/-- Step size after `k` reductions. -/
def stepSeq (c : Config α) : ℕ → α
  | 0 => 1
  | k + 1 => stepSeq c k * c.stepFactor

theorem lineSearch_terminates (hstep : ∃ k, ltb (stepSeq c (k + 1)) c.minStep = true)
    (x dir : Vec n α) (oldObj sdg : α) (rv : ℤ) :
    ∃ ls, lineSearch c a x dir oldObj sdg rv = some ls := by
  obtain ⟨k, hk⟩ := hstep
  refine loopM_terminates (fun s => s.step = stepSeq c s.stepNum ∧ s.stepNum ≤ k)
    (fun s => k - s.stepNum) ?_ ⟨rfl, by simp [lsInit]⟩
  intro s s' hs h
  unfold lsStep at h
  split at h
  · dsimp only at h
    split at h
    · cases h
    · rename_i hlt
      cases h
      have h1 : s.step * c.stepFactor = stepSeq c (s.stepNum + 1) := by rw [hs.1]; rfl
      have hne : s.stepNum ≠ k := by
        rintro rfl
        rw [h1] at hlt
        exact hlt hk
      have := hs.2
      refine ⟨⟨h1, ?_⟩, ?_⟩
      · show s.stepNum + 1 ≤ k; omega
      · show k - (s.stepNum + 1) < k - s.stepNum; omega
  · cases h

/-- Trace numbering invariant. -/
def InvT (s : State n α) : Prop := 1 ≤ s.iter ∧ s.trace.map Trace.iter = List.range s.iter

theorem invT_step {s s' : State n α} (hs : InvT s) (h : mainStep L c a s = .inl s') : InvT s' := by
  have := mainStep_out L c a s
  rw [h] at this
  cases this with
  | next _ _ _ _ _ _ _ _ _ tr htr =>
    exact ⟨by simp, by simp [hs.2, htr, List.range_succ]⟩

theorem invT_exit {s s' : State n α} (hs : InvT s) (h : mainStep L c a s = .inr (.ok s')) :
    1 ≤ s'.iter ∧ s'.trace.map Trace.iter = List.range (s'.iter + 1) := by
  have := mainStep_out L c a s
  rw [h] at this
  cases this with
  | maxIter _ _ _ _ _ _ _ _ _ tr htr => exact ⟨hs.1, by simp [hs.2, htr, List.range_succ]⟩
  | _ => exact ⟨hs.1, by simp [hs.2, Trace.new, List.range_succ]⟩

/-- **C03** The trace has one entry per iteration plus the initial one, numbered 0, 1, 2, … -/
theorem C03_trace (h : solve L c o a = .ok r) :
    1 ≤ r.iter ∧ r.obj.trace.map Trace.iter = List.range (r.iter + 1) := by
  obtain ⟨s, hs, rfl⟩ := solve_rule InvT
    (fun s => 1 ≤ s.iter ∧ s.trace.map Trace.iter = List.range (s.iter + 1))
    ⟨le_rfl, by simp [initState, Trace.new, List.range_succ]⟩ (fun _ _ => invT_step)
    (fun _ _ => invT_exit) h
  exact hs

/-- **C03** Termination: if `max_iter ≥ 1` and some number (at least one) of reductions brings the step size below
`min_step`, then `solve` returns normally after at most `max_iter` iterations, for all other inputs and any arithmetic. -/
theorem C03_terminates (hmax : 1 ≤ c.maxIter)
    (hstep : ∃ k, ltb (stepSeq c (k + 1)) c.minStep = true) :
    ∃ r, solve L c o a = .ok r ∧ (r.iter : ℤ) ≤ c.maxIter := by
  have hI : ∀ s s' : State n α, ((s.iter : ℤ) ≤ c.maxIter) → mainStep L c a s = .inl s' →
      ((s'.iter : ℤ) ≤ c.maxIter) ∧ (c.maxIter - s'.iter).toNat < (c.maxIter - s.iter).toNat := by
    intro s s' hs h
    have := mainStep_out L c a s
    rw [h] at this
    cases this with
    | next _ _ _ _ _ _ _ _ hit => dsimp only; push_cast; omega
  obtain ⟨q, hq⟩ := loopM_terminates (step := mainStep L c a)
    (fun s : State n α => (s.iter : ℤ) ≤ c.maxIter) (fun s => (c.maxIter - s.iter).toNat)
    hI (s := initState a o) (by simpa [initState] using hmax)
  have hQ := loopM_invariant (step := mainStep L c a) (fun s : State n α => (s.iter : ℤ) ≤ c.maxIter)
    (fun q => q = .ub ∨ ∃ s : State n α, q = .ok s ∧ (s.iter : ℤ) ≤ c.maxIter)
    (fun s s' hs h => (hI s s' hs h).1)
    (fun s q hs h => by
      have := mainStep_out L c a s
      rw [h] at this
      cases this with
      | ub => exact .inl rfl
      | diverge d _ _ _ hl =>
        obtain ⟨ls, h'⟩ := lineSearch_terminates (a := a) hstep s.x (scatter (freeAt a s) d) s.obj
          (FOps.dot (scatter (freeAt a s) d) (gradient a s.x)) s.retval
        rw [hl] at h'; cases h'
      | _ => exact .inr ⟨_, rfl, hs⟩)
    (by simpa [initState] using hmax) hq
  rcases hQ with rfl | ⟨s, rfl, hs⟩
  · exact absurd (by simp [solve, loopR, hq, Res.map, Res.bind]) (C08_no_ub (L := L) (c := c) (a := a) (o := o))
  · exact ⟨s.result, by simp [solve, loopR, hq, Res.map], hs⟩

/-- **C03** With `max_iter ≤ 0` the iteration limit is never applied (the test is `iter == max_iter` with `iter ≥ 1`). -/
theorem C03_nonpositive_max_iter (hmax : c.maxIter ≤ 0) (h : solve L c o a = .ok r) :
    r.obj.retval ≠ 1 := by
  obtain ⟨s, hs, rfl⟩ := solve_rule (fun s : State n α => 1 ≤ s.iter)
    (fun s => s.retval ≠ 1) (le_refl 1)
    (fun s s' hs h => by
      have := mainStep_out L c a s
      rw [h] at this
      cases this with
      | next => simp)
    (fun s s' hs h => by
      have := mainStep_out L c a s
      rw [h] at this
      cases this with
      | maxIter _ _ _ _ _ _ _ _ hit => omega
      | _ => simp) h
  exact hs

/-! ## C10 -/

/-- **C10** Constructor: throws exactly for non-positive dimensions or a mismatch with a fixed template dimension. -/
theorem C10_construct (VarDim varDim : ℤ) :
    (construct VarDim varDim = .runtimeError ↔ varDim ≤ 0 ∨ (VarDim ≠ -1 ∧ varDim ≠ VarDim)) ∧
    (construct VarDim varDim = .ok varDim ↔ 0 < varDim ∧ (VarDim = -1 ∨ varDim = VarDim)) := by
  unfold construct
  split
  · simp; omega
  · split
    · simp; omega
    · simp; omega

/-- Relation between runs started from different objects. -/
def Rel10 (s t : State n α) : Prop :=
  1 ≤ s.iter ∧ (∃ l, t = { s with llt := l }) ∧ (1 < s.iter → t = s)

theorem refactorAt_iter_one {s : State n α} (h : s.iter = 1) : refactorAt a s = true := by
  simp [refactorAt, h]

theorem mainStep_llt_all {s : State n α} (h : s.iter = 1) (hall : ∀ i, flagsAt a s i = true)
    (l : Option (Σ k : ℕ, Mat k k α)) :
    mainStep L c a { s with llt := l } = .inr (.ok { s with
      llt := l, oldObj := s.obj, clamped := flagsAt a s, free := freeAt a s, retval := 6,
      trace := s.trace ++ [Trace.new n s.iter] }) := by
  have h2 : (List.finRange n).all (clampedFlags a s.x (gradient a s.x)) = true := by
    rw [List.all_eq_true]; exact fun i _ => hall i
  simp [mainStep, h, h2, freeAt, flagsAt]

theorem mainStep_llt_not {s : State n α} (h : s.iter = 1) (hall : ¬ ∀ i, flagsAt a s i = true)
    (l : Option (Σ k : ℕ, Mat k k α)) :
    mainStep L c a { s with llt := l } = mainStep L c a s := by
  have h2 : (List.finRange n).all (clampedFlags a s.x (gradient a s.x)) = false := by
    rw [← Bool.not_eq_true, List.all_eq_true]
    exact fun h => hall fun i => h i (List.mem_finRange i)
  simp only [mainStep, h, h2, decide_true, Bool.true_or, if_true, lt_irrefl, decide_false,
    Bool.false_and]
  rfl

/-- **C10** Returned vector, return code, free indices, trace and iteration count do not depend on what the
object did before; neither does the factorisation unless it is unused (no free index). -/
theorem C10_history (o' : Obj n α) :
    (∃ r r', solve L c o a = .ok r ∧ solve L c o' a = .ok r' ∧ r.x = r'.x ∧ r.iter = r'.iter ∧
      r.obj.retval = r'.obj.retval ∧ r.obj.free = r'.obj.free ∧ r.obj.trace = r'.obj.trace ∧
      (r.obj.free ≠ [] → r.obj.llt = r'.obj.llt)) ∨
    (solve L c o a = .diverge ∧ solve L c o' a = .diverge) := by
  have key := loopM_rel (f := mainStep L c a) (g := mainStep L c a) Rel10
    (fun q q' => (q = .ub ∧ q' = .ub) ∨ (q = .diverge ∧ q' = .diverge) ∨
      ∃ s l, q = .ok s ∧ q' = .ok { s with llt := l } ∧ (s.free ≠ [] → l = s.llt))
    (fun s t ⟨hi, ⟨l, hl⟩, hst⟩ => by
      have same : ∀ u : State n α, 1 ≤ u.iter →
          (∃ s' t', mainStep L c a u = .inl s' ∧ mainStep L c a u = .inl t' ∧ Rel10 s' t') ∨
          (∃ q q', mainStep L c a u = .inr q ∧ mainStep L c a u = .inr q' ∧
            ((q = .ub ∧ q' = .ub) ∨ (q = .diverge ∧ q' = .diverge) ∨
            ∃ s l, q = .ok s ∧ q' = .ok { s with llt := l } ∧ (s.free ≠ [] → l = s.llt))) := by
        intro u hu
        have hout := mainStep_out L c a u
        generalize mainStep L c a u = z at hout
        cases hout with
        | next =>
          left
          refine ⟨_, _, rfl, rfl, ?_, ⟨_, rfl⟩, fun _ => rfl⟩
          simp
        | ub => exact .inr ⟨_, _, rfl, rfl, .inl ⟨rfl, rfl⟩⟩
        | diverge => exact .inr ⟨_, _, rfl, rfl, .inr (.inl ⟨rfl, rfl⟩)⟩
        | _ => exact .inr ⟨_, _, rfl, rfl, .inr (.inr ⟨_, _, rfl, rfl, fun _ => rfl⟩)⟩
      by_cases h1 : 1 < s.iter
      · obtain rfl := hst h1
        exact same t hi
      · have h1' : s.iter = 1 := by omega
        subst hl
        by_cases hall : ∀ i, flagsAt a s i = true
        · right
          refine ⟨_, _, mainStep_llt_all h1' hall s.llt, mainStep_llt_all h1' hall l,
            .inr (.inr ⟨_, _, rfl, rfl, fun hf => absurd ?_ hf⟩)⟩
          simp [freeAt, idxs, hall]
        · have e := mainStep_llt_not (L := L) (c := c) h1' hall l
          rw [e]
          exact same s hi)
    (s := initState a o) (t := initState a o') ⟨le_rfl, ⟨o'.llt, rfl⟩, fun h => absurd h (by simp [initState])⟩
  rcases key with ⟨h1, h2⟩ | ⟨q, q', h1, h2, (⟨rfl, rfl⟩ | ⟨rfl, rfl⟩ | ⟨s, l, rfl, rfl, h3⟩)⟩
  · right; simp [solve, loopR, h1, h2, Res.map, Res.bind]
  · exact absurd (by simp [solve, loopR, h1, Res.map, Res.bind]) (C08_no_ub (L := L) (c := c) (a := a) (o := o))
  · right; simp [solve, loopR, h1, h2, Res.map, Res.bind]
  · left
    refine ⟨s.result, State.result { s with llt := l }, by simp [solve, loopR, h1, Res.map],
      by simp [solve, loopR, h2, Res.map],
      rfl, rfl, rfl, rfl, rfl, fun hf => (h3 hf).symm⟩

end Nmpc.BoxQP
