import Verif.FMPC.Model

/-!
# Helper lemmas about the FMPC model
-/

set_option linter.unusedSectionVars false

namespace Nmpc.FMPC

open DDP (FDeriv LDeriv VDeriv timeAt)

variable {α : Type} [Add α] [Sub α] [Mul α] [Div α] [Neg α] [Zero α] [One α] [FOps α]

section Stage
variable {n : ℕ} {m p : ℕ → ℕ} {L : GainSolver α} {N : ℕ} {cfg : Config α} {S : Stages n m p α} {x0 : Vec n α}

theorem updateEps_cases (v : Var n m p α) : updateEps N v = .ub ∨ ∃ e, updateEps N v = .ok e := by
  unfold updateEps
  split
  · exact .inl rfl
  · exact .inr ⟨_, rfl⟩

/-- The solver state after the coefficients have been computed. -/
def prepared (N : ℕ) (S : Stages n m p α) (w : Solver n m p α) (e : α) : Solver n m p α :=
  { w with eps := e, coeff := fun i => if i < N then calcCoeff S w.var i (w.coeff i) else w.coeff i,
           term := calcTerm N S w.var w.term }

/-- The barrier parameter of an iteration. -/
def EpsOf (N : ℕ) (cfg : Config α) (w : Solver n m p α) (e : α) : Prop :=
  (cfg.updateBarrierEps = true ∧ updateEps N w.var = .ok e) ∨ (cfg.updateBarrierEps = false ∧ e = w.eps)

theorem prepare_cases (w : Solver n m p α) :
    prepare N cfg S w = .ub ∨ ∃ e, EpsOf N cfg w e ∧ prepare N cfg S w = .ok (prepared N S w e) := by
  unfold prepare
  cases h : cfg.updateBarrierEps with
  | true =>
    rw [if_pos rfl]
    rcases updateEps_cases (N := N) w.var with h1 | ⟨e, h1⟩
    · left; rw [h1]; rfl
    · right; exact ⟨e, .inl ⟨h, h1⟩, by rw [h1]; rfl⟩
  | false => right; exact ⟨w.eps, .inr ⟨h, rfl⟩, rfl⟩

theorem meritScale_cases (v : Var n m p α) (a b : α) :
    meritScale N cfg v a b = .ub ∨ ∃ e, meritScale N cfg v a b = .ok e := by
  unfold meritScale
  split
  · split
    · exact .inl rfl
    · exact .inr ⟨_, rfl⟩
  · exact .inr ⟨_, rfl⟩

/-- Outcomes of the line search. -/
inductive LsOut (N : ℕ) (cfg : Config α) (S : Stages n m p α) (x0 : Vec n α) (w : Solver n m p α) (a : α) :
    Res (α × Solver n m p α) → Prop
  | off (h : cfg.enableLineSearch = false) : LsOut N cfg S x0 w a (.ok (a, w))
  | on (h : cfg.enableLineSearch = true) (mt : Merit α) (hm : setupMerit N cfg S x0 w = .ok mt) (b : α)
      (hb : loopM (lsStep (armijo N S x0 { w with merit := mt })) a = some b) :
      LsOut N cfg S x0 w a (.ok (b, { w with merit := mt }))
  | ub (h : cfg.enableLineSearch = true) (hm : setupMerit N cfg S x0 w = .ub) : LsOut N cfg S x0 w a .ub
  | diverge (h : cfg.enableLineSearch = true) (mt : Merit α) (hm : setupMerit N cfg S x0 w = .ok mt)
      (hb : loopM (lsStep (armijo N S x0 { w with merit := mt })) a = none) :
      LsOut N cfg S x0 w a .diverge

theorem lineSearch_out (w : Solver n m p α) (a : α) : LsOut N cfg S x0 w a (lineSearch N cfg S x0 w a) := by
  unfold lineSearch
  cases h : cfg.enableLineSearch with
  | false => exact .off h
  | true =>
    rw [if_pos rfl]
    have hm : setupMerit N cfg S x0 w = .ub ∨ ∃ mt, setupMerit N cfg S x0 w = .ok mt := by
      unfold setupMerit
      dsimp only
      rcases meritScale_cases (N := N) (cfg := cfg) w.var (meritConst N S x0 w.var) (meritDerivObj N S w) with h1 | ⟨e, h1⟩
      · left; rw [h1]; rfl
      · right; rw [h1]; exact ⟨_, rfl⟩
    rcases hm with hm | ⟨mt, hm⟩
    · rw [hm]; exact .ub h hm
    · rw [hm]
      dsimp only [Res.bind_ok]
      split
      · rename_i b hb; exact .on h mt hm b hb
      · rename_i hb; exact .diverge h mt hm hb

/-- Outcomes of `updateVariables`. -/
inductive UpdOut (N : ℕ) (cfg : Config α) (S : Stages n m p α) (x0 : Vec n α) (w : Solver n m p α) :
    Res (Bool × Solver n m p α) → Prop
  | reject (h : alphaOk (alphaMax N w.var.s w.delta.s) (alphaMax N w.var.nu w.delta.nu) = false) :
      UpdOut N cfg S x0 w (.ok (false, w))
  | step (h : alphaOk (alphaMax N w.var.s w.delta.s) (alphaMax N w.var.nu w.delta.nu) = true)
      (a : α) (mt : Merit α)
      (hl : lineSearch N cfg S x0 w (alphaMax N w.var.s w.delta.s) = .ok (a, { w with merit := mt })) :
      UpdOut N cfg S x0 w (.ok (true,
        { w with merit := mt, var := applyStep w.var w.delta a (alphaMax N w.var.nu w.delta.nu) }))
  | ub (hl : lineSearch N cfg S x0 w (alphaMax N w.var.s w.delta.s) = .ub) : UpdOut N cfg S x0 w .ub
  | diverge (hl : lineSearch N cfg S x0 w (alphaMax N w.var.s w.delta.s) = .diverge) :
      UpdOut N cfg S x0 w .diverge

theorem updateVariables_out (w : Solver n m p α) : UpdOut N cfg S x0 w (updateVariables N cfg S x0 w) := by
  unfold updateVariables
  dsimp only
  split
  · rename_i h
    have := lineSearch_out (N := N) (cfg := cfg) (S := S) (x0 := x0) w (alphaMax N w.var.s w.delta.s)
    generalize hr : lineSearch N cfg S x0 w (alphaMax N w.var.s w.delta.s) = r at this
    cases this with
    | off h' => exact .step h _ w.merit hr
    | on h' mt hm b hb => exact .step h b mt hr
    | ub => exact .ub hr
    | diverge => exact .diverge hr
  · rename_i h
    exact .reject (by simpa using h)

/-- KKT error of the prepared state. -/
def kktOf (N : ℕ) (x0 : Vec n α) (w1 : Solver n m p α) : α := calcKktError N 0 x0 w1.var w1.coeff w1.term

/-- The state with the trace entry of the iteration. -/
def traced (N : ℕ) (x0 : Vec n α) (iter : ℕ) (w1 : Solver n m p α) : Solver n m p α :=
  { w1 with trace := w1.trace ++ [{ iter := iter, kktError := kktOf N x0 w1 }] }

/-- Outcomes of `procOnce`. -/
inductive ProcOut (L : GainSolver α) (N : ℕ) (cfg : Config α) (S : Stages n m p α) (x0 : Vec n α) (iter : ℕ)
    (w : Solver n m p α) : Res (Solver n m p α × Status) → Prop
  | ubEps (h : prepare N cfg S w = .ub) : ProcOut L N cfg S x0 iter w .ub
  | succeeded (e : α) (he : EpsOf N cfg w e) (hk : leb (kktOf N x0 (prepared N S w e)) cfg.kktErrorThre = true) :
      ProcOut L N cfg S x0 iter w (.ok (traced N x0 iter (prepared N S w e), .succeeded))
  | backward (e : α) (he : EpsOf N cfg w e) (hk : leb (kktOf N x0 (prepared N S w e)) cfg.kktErrorThre = false)
      (hb : (backwardPass L N cfg S (traced N x0 iter (prepared N S w e))).1 = false) :
      ProcOut L N cfg S x0 iter w
        (.ok ((backwardPass L N cfg S (traced N x0 iter (prepared N S w e))).2, .errorInBackward))
  | forward (e : α) (he : EpsOf N cfg w e) (hk : leb (kktOf N x0 (prepared N S w e)) cfg.kktErrorThre = false)
      (w2 : Solver n m p α) (hb : backwardPass L N cfg S (traced N x0 iter (prepared N S w e)) = (true, w2))
      (hf : (forwardPass N cfg x0 w2).1 = false) :
      ProcOut L N cfg S x0 iter w (.ok ((forwardPass N cfg x0 w2).2, .errorInForward))
  | update (e : α) (he : EpsOf N cfg w e) (hk : leb (kktOf N x0 (prepared N S w e)) cfg.kktErrorThre = false)
      (w2 : Solver n m p α) (hb : backwardPass L N cfg S (traced N x0 iter (prepared N S w e)) = (true, w2))
      (w3 : Solver n m p α) (hf : forwardPass N cfg x0 w2 = (true, w3))
      (r : Res (Bool × Solver n m p α)) (hr : updateVariables N cfg S x0 w3 = r) :
      ProcOut L N cfg S x0 iter w (r.map fun q => (q.2, if q.1 then .iterationContinued else .errorInUpdate))

theorem procOnce_out (iter : ℕ) (w : Solver n m p α) :
    ProcOut L N cfg S x0 iter w (procOnce L N cfg S x0 iter w) := by
  unfold procOnce
  rcases prepare_cases (N := N) (cfg := cfg) (S := S) w with h | ⟨e, he, h⟩
  · rw [h]; exact .ubEps h
  rw [h]
  dsimp only [Res.bind_ok]
  have ht : ({ prepared N S w e with trace := w.trace ++
    [{ iter := iter, kktError := calcKktError N 0 x0 (prepared N S w e).var (prepared N S w e).coeff
        (prepared N S w e).term }] } : Solver n m p α) = traced N x0 iter (prepared N S w e) := rfl
  rw [ht]
  split
  · rename_i hk; exact .succeeded e he hk
  rename_i hk
  have hk : leb (kktOf N x0 (prepared N S w e)) cfg.kktErrorThre = false := by simpa [kktOf] using hk
  generalize hb : backwardPass L N cfg S (traced N x0 iter (prepared N S w e)) = b
  obtain ⟨b1, w2⟩ := b
  cases b1 with
  | false =>
    have := ProcOut.backward (L := L) (iter := iter) e he hk (by rw [hb])
    rw [hb] at this
    exact this
  | true =>
    dsimp only
    rw [if_pos rfl]
    generalize hf : forwardPass N cfg x0 w2 = f
    obtain ⟨f1, w3⟩ := f
    cases f1 with
    | false =>
      have := ProcOut.forward (L := L) (iter := iter) e he hk w2 hb (by rw [hf])
      rw [hf] at this
      exact this
    | true => exact .update e he hk w2 hb w3 hf _ rfl

/-! ## What the passes leave alone -/

theorem backwardPass_frame (w : Solver n m p α) :
    (backwardPass L N cfg S w).2.var = w.var ∧ (backwardPass L N cfg S w).2.eps = w.eps ∧
    (backwardPass L N cfg S w).2.trace = w.trace := by
  unfold backwardPass
  dsimp only
  split
  · split <;> exact ⟨rfl, rfl, rfl⟩
  · exact ⟨rfl, rfl, rfl⟩

theorem forwardPass_frame (w : Solver n m p α) :
    (forwardPass N cfg x0 w).2.var = w.var ∧ (forwardPass N cfg x0 w).2.eps = w.eps ∧
    (forwardPass N cfg x0 w).2.trace = w.trace := ⟨rfl, rfl, rfl⟩

/-- The trace and barrier parameter after an iteration, and the variable unless the iteration continued. -/
theorem procOnce_frame {iter : ℕ} {w w' : Solver n m p α} {st : Status}
    (h : procOnce L N cfg S x0 iter w = .ok (w', st)) :
    ∃ e, EpsOf N cfg w e ∧ w'.eps = e ∧
      w'.trace = w.trace ++ [{ iter := iter, kktError := kktOf N x0 (prepared N S w e) }] ∧
      (st ≠ .iterationContinued → w'.var = w.var) ∧
      (st = .succeeded ↔ leb (kktOf N x0 (prepared N S w e)) cfg.kktErrorThre = true) ∧
      st ≠ .uninitialized ∧ st ≠ .maxIterationReached := by
  have := procOnce_out (L := L) (N := N) (cfg := cfg) (S := S) (x0 := x0) iter w
  rw [h] at this
  generalize hx : (Res.ok (w', st) : Res (Solver n m p α × Status)) = x at this
  cases this with
  | ubEps => cases hx
  | succeeded e he hk =>
    cases hx
    exact ⟨e, he, rfl, rfl, fun _ => rfl, by simp [hk], by simp, by simp⟩
  | backward e he hk hb =>
    cases hx
    obtain ⟨h1, h2, h3⟩ := backwardPass_frame (L := L) (N := N) (cfg := cfg) (S := S) (traced N x0 iter (prepared N S w e))
    exact ⟨e, he, h2, h3, fun _ => h1, by simp [hk], by simp, by simp⟩
  | forward e he hk w2 hb hf =>
    cases hx
    obtain ⟨h1, h2, h3⟩ := backwardPass_frame (L := L) (N := N) (cfg := cfg) (S := S) (traced N x0 iter (prepared N S w e))
    rw [hb] at h1 h2 h3
    exact ⟨e, he, h2, h3, fun _ => h1, by simp [hk], by simp, by simp⟩
  | update e he hk w2 hb w3 hf r hr =>
    obtain ⟨h1, h2, h3⟩ := backwardPass_frame (L := L) (N := N) (cfg := cfg) (S := S) (traced N x0 iter (prepared N S w e))
    rw [hb] at h1 h2 h3
    obtain ⟨g1, g2, g3⟩ := forwardPass_frame (N := N) (cfg := cfg) (x0 := x0) w2
    rw [hf] at g1 g2 g3
    dsimp only at h1 h2 h3 g1 g2 g3
    have := updateVariables_out (N := N) (cfg := cfg) (S := S) (x0 := x0) w3
    rw [hr] at this
    cases this with
    | reject hh =>
      cases hx
      refine ⟨e, he, ?_, ?_, fun _ => ?_, by simp [hk], by simp, by simp⟩
      · exact g2.trans h2
      · exact g3.trans h3
      · exact g1.trans h1
    | step hh a mt hl =>
      cases hx
      refine ⟨e, he, ?_, ?_, fun hc => absurd rfl hc, by simp [hk], by simp, by simp⟩
      · exact g2.trans h2
      · exact g3.trans h3
    | ub => cases hx
    | diverge => cases hx

/-! ## The loop -/

/-- Induction over the optimisation loop. -/
theorem optLoop_rule (I : ℕ → Status → Solver n m p α → Prop) (Q : Status → Solver n m p α → Prop) {r iter : ℕ} {st : Status}
    {w : Solver n m p α} (h0 : I iter st w)
    (hstep : ∀ it st w w' st', iter ≤ it → it < iter + r → I it st w →
      procOnce L N cfg S x0 it w = .ok (w', st') →
      if st' = .iterationContinued then I (it + 1) st' w' else Q st' w')
    (hend : ∀ st w, I (iter + r) st w → Q st w)
    {w' : Solver n m p α} {st' : Status} (h : optLoop L N cfg S x0 r iter st w = .ok (w', st')) : Q st' w' := by
  induction r generalizing iter st w with
  | zero => cases h; exact hend _ _ h0
  | succ r ih =>
    unfold optLoop at h
    generalize hp : procOnce L N cfg S x0 iter w = q at h
    cases q with
    | ok q =>
      obtain ⟨w1, st1⟩ := q
      have := hstep iter st w w1 st1 (le_refl _) (by omega) h0 hp
      dsimp only [Res.bind_ok] at h
      by_cases hc : st1 = .iterationContinued
      · rw [if_pos hc] at this
        rw [if_neg (by simpa using hc)] at h
        refine ih this ?_ ?_ h
        · intro it st w w' st' h1 h2 h3 h4
          exact hstep it st w w' st' (by omega) (by omega) h3 h4
        · intro st w h1
          exact hend st w (by rw [show iter + (r + 1) = iter + 1 + r by omega]; exact h1)
      · rw [if_neg hc] at this
        rw [if_pos hc] at h
        cases h
        exact this
    | _ => cases h

/-- An invariant of all executed iterations excludes an error outcome. -/
theorem optLoop_ne (I : Solver n m p α → Prop) {r iter : ℕ} {st : Status} {w : Solver n m p α} (h0 : I w)
    (hI : ∀ it w w', I w → procOnce L N cfg S x0 it w = .ok (w', .iterationContinued) → I w')
    (e : Res (Solver n m p α × Status)) (he : ∀ q, e ≠ .ok q)
    (hne : ∀ it w, I w → procOnce L N cfg S x0 it w ≠ e) :
    optLoop L N cfg S x0 r iter st w ≠ e := by
  induction r generalizing iter st w with
  | zero => exact fun h => he _ h.symm
  | succ r ih =>
    unfold optLoop
    have := hne iter w h0
    generalize hp : procOnce L N cfg S x0 iter w = q at this
    cases q with
    | ok q =>
      obtain ⟨w1, st1⟩ := q
      dsimp only [Res.bind_ok]
      by_cases hc : st1 = .iterationContinued
      · rw [if_neg (by simpa using hc)]
        exact ih (hI iter w w1 h0 (by rw [hp, hc]))
      · rw [if_pos hc]
        exact fun h => he _ h.symm
    | invalidArgument => intro h; apply this; rw [← h]; rfl
    | runtimeError => intro h; apply this; rw [← h]; rfl
    | otherException => intro h; apply this; rw [← h]; rfl
    | ub => intro h; apply this; rw [← h]; rfl
    | diverge => intro h; apply this; rw [← h]; rfl

end Stage

/-! ## `solve` -/

section Solve
variable {n : ℕ} {md pd : α → ℕ} {L : GainSolver α} {P : Callbacks n md pd} {dt : α} {cfg : Config α} {o : Obj n α}
  {t0 : α} {sc : Scratch n (fun i => md (timeAt t0 dt i)) (fun i => pd (timeAt t0 dt i)) α} {x0 : Vec n α}
  {init : VarL n α}

/-- The variable on which `checkVariable` is called. -/
def startVar (P : Callbacks n md pd) (dt : α) (cfg : Config α) (t0 : α) (init : VarL n α) : Res (VarL n α) :=
  if cfg.initComplementary then initCompl P t0 dt cfg.horizon.toNat init else .ok init

/-- The barrier parameter at the start. -/
def startEps (cfg : Config α) (o : Obj n α) : α := if cfg.initComplementary then initialBarrierEps else o.eps

theorem checkVariable_cases (v : VarL n α) :
    checkVariable md pd t0 dt cfg.horizon v = .ok () ∨ checkVariable md pd t0 dt cfg.horizon v = .invalidArgument ∨
    checkVariable md pd t0 dt cfg.horizon v = .runtimeError := by
  unfold checkVariable
  repeat' split
  all_goals simp

theorem initCompl_cases (k : ℕ) (v : VarL n α) : initCompl P t0 dt k v = .ub ∨ ∃ v', initCompl P t0 dt k v = .ok v' := by
  induction k with
  | zero => exact .inr ⟨v, rfl⟩
  | succ k ih =>
    rcases ih with h | ⟨v', h⟩
    · left; unfold initCompl; rw [h]; rfl
    · unfold initCompl; rw [h]
      dsimp only [Res.bind_ok]
      split
      · split
        · split
          · exact .inr ⟨_, rfl⟩
          · exact .inl rfl
        · exact .inl rfl
      · exact .inl rfl

/-- Outcomes of `solve`. -/
inductive SolveOut (L : GainSolver α) (P : Callbacks n md pd) (dt : α) (cfg : Config α) (o : Obj n α)
    (t0 : α) (sc : Scratch n (fun i => md (timeAt t0 dt i)) (fun i => pd (timeAt t0 dt i)) α) (x0 : Vec n α)
    (init : VarL n α) : Obj n α × Res Status → Prop
  | ubInit (h : startVar P dt cfg t0 init = .ub) (o') : SolveOut L P dt cfg o t0 sc x0 init (o', .ub)
  | invalid (v) (hv : startVar P dt cfg t0 init = .ok v)
      (hc : checkVariable md pd t0 dt cfg.horizon v = .invalidArgument) :
      SolveOut L P dt cfg o t0 sc x0 init ({ o with var := v, eps := startEps cfg o }, .invalidArgument)
  | runtime (v) (hv : startVar P dt cfg t0 init = .ok v)
      (hc : checkVariable md pd t0 dt cfg.horizon v = .runtimeError) :
      SolveOut L P dt cfg o t0 sc x0 init ({ o with var := v, eps := startEps cfg o }, .runtimeError)
  | ok (v) (hv : startVar P dt cfg t0 init = .ok v) (hc : checkVariable md pd t0 dt cfg.horizon v = .ok ()) (w) (st)
      (hr : runSolver L v.us.length cfg (stagesOf P t0 dt v.us.length) x0 (initSolver v (startEps cfg o) sc) =
        .ok (w, st)) :
      SolveOut L P dt cfg o t0 sc x0 init
        ({ var := w.var.out v.us.length, trace := w.trace, eps := w.eps }, .ok st)
  | bad (v) (hv : startVar P dt cfg t0 init = .ok v) (hc : checkVariable md pd t0 dt cfg.horizon v = .ok ()) (o')
      (e : Res Status) (he : e = .ub ∨ e = .diverge)
      (hr : (e = .diverge ∧ runSolver L v.us.length cfg (stagesOf P t0 dt v.us.length) x0
          (initSolver v (startEps cfg o) sc) = .diverge) ∨
        (e = .ub ∧ ∀ q, runSolver L v.us.length cfg (stagesOf P t0 dt v.us.length) x0
          (initSolver v (startEps cfg o) sc) ≠ .ok q)) :
      SolveOut L P dt cfg o t0 sc x0 init (o', e)

theorem solve_out : SolveOut L P dt cfg o t0 sc x0 init (solve L P dt cfg o t0 sc x0 init) := by
  unfold solve
  dsimp only
  have hsv : (if cfg.initComplementary = true then initCompl P t0 dt cfg.horizon.toNat init else .ok init) =
    startVar P dt cfg t0 init := rfl
  rw [hsv]
  have hcase : startVar P dt cfg t0 init = .ub ∨ ∃ v, startVar P dt cfg t0 init = .ok v := by
    unfold startVar
    split
    · exact initCompl_cases _ _
    · exact .inr ⟨_, rfl⟩
  rcases hcase with h | ⟨v, h⟩
  · rw [h]; exact .ubInit h _
  rw [h]
  dsimp only
  rcases checkVariable_cases (md := md) (pd := pd) (t0 := t0) (dt := dt) (cfg := cfg) v with hc | hc | hc
  · rw [hc]
    dsimp only
    have hse : (if cfg.initComplementary = true then initialBarrierEps else o.eps) = startEps cfg o := rfl
    rw [hse]
    generalize hr : runSolver L v.us.length cfg (stagesOf P t0 dt v.us.length) x0
      (initSolver v (startEps cfg o) sc) = r
    cases r with
    | ok q => obtain ⟨w, st⟩ := q; exact .ok v h hc w st hr
    | diverge => exact .bad v h hc _ _ (.inr rfl) (.inl ⟨rfl, hr⟩)
    | ub => exact .bad v h hc _ _ (.inl rfl) (.inr ⟨rfl, by rw [hr]; simp⟩)
    | invalidArgument => exact .bad v h hc _ _ (.inl rfl) (.inr ⟨rfl, by rw [hr]; simp⟩)
    | runtimeError => exact .bad v h hc _ _ (.inl rfl) (.inr ⟨rfl, by rw [hr]; simp⟩)
    | otherException => exact .bad v h hc _ _ (.inl rfl) (.inr ⟨rfl, by rw [hr]; simp⟩)
  · rw [hc]; exact .invalid v h hc
  · rw [hc]; exact .runtime v h hc

theorem solve_ok {o' : Obj n α} {st : Status} (h : solve L P dt cfg o t0 sc x0 init = (o', .ok st)) :
    ∃ v w, startVar P dt cfg t0 init = .ok v ∧ checkVariable md pd t0 dt cfg.horizon v = .ok () ∧
      runSolver L v.us.length cfg (stagesOf P t0 dt v.us.length) x0 (initSolver v (startEps cfg o) sc) = .ok (w, st) ∧
      o' = { var := w.var.out v.us.length, trace := w.trace, eps := w.eps } := by
  have := solve_out (L := L) (P := P) (dt := dt) (cfg := cfg) (o := o) (t0 := t0) (sc := sc) (x0 := x0) (init := init)
  rw [h] at this
  generalize hx : ((o', Res.ok st) : Obj n α × Res Status) = x at this
  cases this with
  | ok v hv hc w st' hr => cases hx; exact ⟨v, w, hv, hc, hr, rfl⟩
  | bad v hv hc o'' e he hr => cases hx; rcases he with he | he <;> cases he
  | _ => cases hx

theorem runSolver_ok {m p : ℕ → ℕ} {N : ℕ} {S : Stages n m p α} {w w' : Solver n m p α} {st : Status}
    (h : runSolver L N cfg S x0 w = .ok (w', st)) :
    ∃ st', optLoop L N cfg S x0 cfg.maxIter.toNat 1 .uninitialized w = .ok (w', st') ∧
      st = (if st' = .iterationContinued then .maxIterationReached else st') ∧
      ¬ (3 ≤ cfg.printLevel ∧ w'.trace = []) := by
  unfold runSolver at h
  generalize ho : optLoop L N cfg S x0 cfg.maxIter.toNat 1 .uninitialized w = q at h
  cases q with
  | ok q =>
    obtain ⟨w1, st1⟩ := q
    dsimp only [Res.bind_ok] at h
    split at h
    · cases h
    · rename_i hn; cases h; exact ⟨st1, rfl, rfl, hn⟩
  | _ => cases h

end Solve
end Nmpc.FMPC
