import Verif.DDP.Mpc
import Verif.BoxQP.Mirror

/-!
# C125: reflection symmetry of DDP

`DDPSolver::solve` and the receding-horizon loops on the reflected problem (`x ↦ -x`, `u ↦ -u`) return the reflected result, with
or without input limits, in every arithmetic with `OddLaws`.
-/

namespace Nmpc.DDP

set_option linter.unusedSectionVars false

variable {α : Type} [Add α] [Sub α] [Mul α] [Div α] [Neg α] [Zero α] [One α] [FOps α]

section Defs
variable {n : ℕ} {m : ℕ → ℕ} {k : ℕ}

def LDeriv.mirror (d : LDeriv n k α) : LDeriv n k α := { d with Lx := -d.Lx, Lu := -d.Lu }

def VDeriv.mirror (d : VDeriv n α) : VDeriv n α := { d with Vx := -d.Vx }

def QData.mirror (q : QData n k α) : QData n k α := { q with Qu := -q.Qu, Qx := -q.Qx }

def Stages.mirror (S : Stages n m α) : Stages n m α where
  f i x u := -S.f i (-x) (-u)
  l i x u := S.l i (-x) (-u)
  φ x := S.φ (-x)
  df i x u b := S.df i (-x) (-u) b
  df2 i x u b := S.df2 i (-x) (-u) b
  dl i x u b := (S.dl i (-x) (-u) b.mirror).mirror
  dφ x b := (S.dφ (-x) b.mirror).mirror
  lim := S.lim.map fun g i => (-(g i).2, -(g i).1)

def Ctrl.mirror (c : Ctrl n m α) : Ctrl n m α where
  x i := -c.x i
  u i := -c.u i
  cost := c.cost

def Gains.mirror (g : Gains n m α) : Gains n m α := { g with k := fun i => -g.k i }

def Derivs.mirror (d : Derivs n m α) : Derivs n m α where
  F := d.F
  L i := (d.L i).mirror
  V := d.V.mirror

def BwState.mirror (b : BwState n m α) : BwState n m α := { b with V := b.V.mirror, gains := b.gains.mirror }

def Solver.mirror (s : Solver n m α) : Solver n m α :=
  { s with ctrl := s.ctrl.mirror, gains := s.gains.mirror, derivs := s.derivs.mirror }

def Fwd.mirror (w : Fwd n m α) : Fwd n m α := { w with cand := w.cand.mirror }

def Scratch.mirror (s : Scratch n m α) : Scratch n m α := { s with gains := s.gains.mirror, derivs := s.derivs.mirror }

/-- The negated list of inputs. -/
def mirrorUs (us : List (Σ k : ℕ, Vec k α)) : List (Σ k : ℕ, Vec k α) := us.map fun p => ⟨p.1, -p.2⟩

def ControlData.mirror (c : ControlData n α) : ControlData n α where
  xs := c.xs.map fun x => -x
  us := mirrorUs c.us
  costs := c.costs

/-- The reflected control data; the trace is the same. -/
def Obj.mirror (o : Obj n α) : Obj n α := { o with control := o.control.mirror }

/-- The reflected problem: dynamics `-f(t, -x, -u)`, costs `l(t, -x, -u)` and `φ(t, -x)`. -/
def Callbacks.mirror {md : α → ℕ} (P : Callbacks n md) : Callbacks n md where
  stateEq t x u := -P.stateEq t (-x) (-u)
  runningCost t x u := P.runningCost t (-x) (-u)
  terminalCost t x := P.terminalCost t (-x)
  stateEqDeriv t x u b := P.stateEqDeriv t (-x) (-u) b
  stateEqDeriv2 t x u b := P.stateEqDeriv2 t (-x) (-u) b
  runningCostDeriv t x u b := (P.runningCostDeriv t (-x) (-u) b.mirror).mirror
  terminalCostDeriv t x b := (P.terminalCostDeriv t (-x) b.mirror).mirror

/-- The reflected limits. -/
def mirrorLim {md : α → ℕ} (lim : Option ((t : α) → Vec (md t) α × Vec (md t) α)) :
    Option ((t : α) → Vec (md t) α × Vec (md t) α) := lim.map fun g t => (-(g t).2, -(g t).1)

end Defs

section Rel
variable {n : ℕ} {m : ℕ → ℕ} {L : LLT α} {cfg : Config α} {N : ℕ} {S : Stages n m α} (hO : OddLaws α)
  (hL : ∀ {k : ℕ} (M : Mat k k α) (b : Vec k α), L.solve M (-b) = -L.solve M b)
include hO

theorem LDeriv.mirror_mirror {k : ℕ} (d : LDeriv n k α) : d.mirror.mirror = d := by
  simp only [LDeriv.mirror, hO.vneg_neg]

theorem VDeriv.mirror_mirror (d : VDeriv n α) : d.mirror.mirror = d := by
  simp only [VDeriv.mirror, hO.vneg_neg]

theorem totalCost_mirror (c : Ctrl n m α) : totalCost N c.mirror = totalCost N c := rfl

theorem rollout_mirror (x0 : Vec n α) (pol pol' : (i : ℕ) → Vec n α → Vec (m i) α) (hp : ∀ i x, pol' i (-x) = -pol i x) :
    rollout N S.mirror (-x0) pol' = (rollout N S x0 pol).mirror := by
  have hx : ∀ i, rollX S.mirror (-x0) pol' i = -rollX S x0 pol i := by
    intro i
    induction i with
    | zero => rfl
    | succ i ih =>
      simp only [rollX]
      rw [ih, hp]
      show -S.f i (- -_) (- -_) = _
      rw [hO.vneg_neg, hO.vneg_neg]
  unfold rollout Ctrl.mirror
  congr 1
  · funext i; exact hx i
  · funext i; rw [hx, hp]
  · funext i
    rw [hx, hp]
    show (if i < N then S.l i (- -_) (- -_) else S.φ (- -_)) = _
    rw [hO.vneg_neg, hO.vneg_neg]

theorem forwardPass_mirror (c : Ctrl n m α) (g : Gains n m α) (a : α) :
    forwardPass N S.mirror c.mirror g.mirror a = (forwardPass N S c g a).mirror := by
  refine rollout_mirror hO _ _ _ fun i x => ?_
  show -c.u i + smulv a (-g.k i) + FOps.mulVec (g.K i) (-x - -c.x i) = _
  rw [hO.smulv, hO.vsub, hO.mulVec, hO.vadd, hO.vadd]

theorem calcDerivs_mirror (c : Ctrl n m α) (d : Derivs n m α) :
    calcDerivs N cfg S.mirror c.mirror d.mirror = (calcDerivs N cfg S c d).mirror := by
  unfold calcDerivs Derivs.mirror
  dsimp only
  congr 1
  · funext i
    show (if i < N then (if cfg.useSecond = true then S.df2 i (- -_) (- -_) _ else S.df i (- -_) (- -_) _) else _) = _
    rw [hO.vneg_neg, hO.vneg_neg]
  · funext i
    split
    · show (S.dl i (- -_) (- -_) (LDeriv.mirror (LDeriv.mirror _))).mirror = _
      rw [hO.vneg_neg, hO.vneg_neg, LDeriv.mirror_mirror hO]
    · rfl
  · show (S.dφ (- -_) (VDeriv.mirror (VDeriv.mirror _))).mirror = _
    rw [hO.vneg_neg, VDeriv.mirror_mirror hO]

theorem calcQ_mirror {k : ℕ} (lambda : α) (F : FDeriv n k α) (l : LDeriv n k α) (V : VDeriv n α) :
    calcQ cfg lambda F l.mirror V.mirror = (calcQ cfg lambda F l V).mirror := by
  unfold calcQ QData.mirror
  dsimp only
  congr 1
  · show -l.Lu + FOps.mulVec _ (-V.Vx) = _
    rw [hO.mulVec, hO.vadd]
  · show -l.Lx + FOps.mulVec _ (-V.Vx) = _
    rw [hO.mulVec, hO.vadd]

theorem updateV_mirror {k : ℕ} (Q : QData n k α) (kv : Vec k α) (K : Mat k n α) :
    updateV Q.mirror (-kv) K = (updateV Q kv K).mirror := by
  unfold updateV VDeriv.mirror
  dsimp only
  congr 1
  show -Q.Qx + FOps.mulVec _ (-kv) + FOps.mulVec _ (-Q.Qu) + FOps.mulVec _ (-kv) = _
  rw [hO.mulVec, hO.mulVec, hO.mulVec, hO.vadd, hO.vadd, hO.vadd]
  rfl

theorem zeroVec_mirror {k : ℕ} : -(fun _ => 0 : Vec k α) = fun _ => 0 := funext fun _ => hO.neg_zero

theorem initialK_mirror (g : Gains n m α) (i : ℕ) : initialK N g.mirror i = -initialK N g i := by
  have hc : ∀ {a b : ℕ} (h : a = b) (v : Vec a α), (h ▸ (-v) : Vec b α) = -(h ▸ v : Vec b α) := by
    intro a b h v; subst h; rfl
  unfold initialK
  split
  · exact (zeroVec_mirror hO).symm
  · split
    · exact hc _ _
    · exact (zeroVec_mirror hO).symm

include hL

theorem unconstrainedGains_mirror {k : ℕ} (Q : QData n k α) :
    unconstrainedGains L Q.mirror = (unconstrainedGains L Q).map fun p => (-p.1, p.2) := by
  unfold unconstrainedGains
  show (if L.ok Q.QuuF = true then some (smulv (-1) (L.solve Q.QuuF (-Q.Qu)), _) else none) = _
  rw [hL, hO.smulv]
  split <;> rfl

theorem constrainedGains_mirror {k : ℕ} (Q : QData n k α) (lower upper u ik : Vec k α)
    (h : ∀ i, ltb (upper i) (lower i) = false) :
    constrainedGains L Q.mirror (-upper) (-lower) (-u) (-ik) =
      (constrainedGains L Q lower upper u ik).map (Option.map fun p => (-p.1, p.2)) := by
  unfold constrainedGains
  rw [hO.vsub, hO.vsub]
  have := BoxQP.C125_boxqp_mirror hO (L := L) (c := BoxQP.Config.default) (o := freshQP k)
    (a := { H := Q.QuuF, g := Q.Qu, lower := lower - u, upper := upper - u, init := ik }) hL
    (fun i => hO.sub_mono _ _ _ (h i))
  unfold BoxQP.Args.mirror at this
  dsimp only at this
  show (BoxQP.solve L BoxQP.Config.default (freshQP k)
    { H := Q.QuuF, g := -Q.Qu, lower := -(upper - u), upper := -(lower - u), init := -ik }).bind _ = _
  rw [this]
  generalize BoxQP.solve L BoxQP.Config.default (freshQP k) _ = q
  cases q with
  | ok r =>
    show (if r.obj.retval < 0 then _ else if r.obj.free.length > 0 then _ else _) = Res.map _ (if r.obj.retval < 0 then _ else
      if r.obj.free.length > 0 then _ else _)
    split
    · rfl
    · split
      · show (match r.obj.llt with
          | none => _
          | some ⟨j, M⟩ => _) = _
        cases r.obj.llt with
        | none => rfl
        | some p =>
          obtain ⟨j, M⟩ := p
          dsimp only
          by_cases hj : j = r.obj.free.length
          · rw [dif_pos (show j = r.mirror.obj.free.length from hj), dif_pos hj]
            rfl
          · rw [dif_neg (show ¬ j = r.mirror.obj.free.length from hj), dif_neg hj]
            rfl
      · rfl
  | _ => rfl

variable (hlim : ∀ g, S.lim = some g → ∀ i j, ltb ((g i).2 j) ((g i).1 j) = false)
include hlim

theorem stageGains_mirror (c : Ctrl n m α) (g : Gains n m α) (i : ℕ) (Q : QData n (m i) α) :
    stageGains L N cfg S.mirror c.mirror g.mirror i Q.mirror =
      (stageGains L N cfg S c g i Q).map (Option.map fun p => (-p.1, p.2)) := by
  unfold stageGains
  split
  · split
    · cases hl : S.lim with
      | none =>
        rw [show S.mirror.lim = none by simp [Stages.mirror, hl]]
        rfl
      | some f =>
        rw [show S.mirror.lim = some fun i => (-(f i).2, -(f i).1) by simp [Stages.mirror, hl]]
        dsimp only
        rw [initialK_mirror hO]
        exact constrainedGains_mirror hO hL Q _ _ _ _ (hlim f hl i)
    · rw [unconstrainedGains_mirror hO hL]; rfl
  · show Res.ok (some (fun _ => 0, fun _ _ => 0)) = Res.ok (some (-(fun _ => 0), fun _ _ => 0))
    rw [zeroVec_mirror hO]

theorem bwStage_mirror (c : Ctrl n m α) (d : Derivs n m α) (lambda : α) (i : ℕ) (b : BwState n m α) :
    bwStage L N cfg S.mirror c.mirror d.mirror lambda i b.mirror =
      (bwStage L N cfg S c d lambda i b).map fun p => (p.1, p.2.mirror) := by
  unfold bwStage
  split
  · rfl
  · show (stageGains L N cfg S.mirror c.mirror b.gains.mirror i (calcQ cfg lambda (d.F i) (d.L i).mirror b.V.mirror)).bind _ = _
    have hV : b.mirror.V = b.V.mirror := rfl
    dsimp only
    have hQ : calcQ cfg lambda (d.mirror.F i) (d.mirror.L i) b.mirror.V = (calcQ cfg lambda (d.F i) (d.L i) b.V).mirror :=
      calcQ_mirror hO _ _ _ _
    have hQ' : calcQ cfg lambda (d.F i) (d.L i).mirror b.V.mirror = (calcQ cfg lambda (d.F i) (d.L i) b.V).mirror := hQ
    rw [hQ', stageGains_mirror hO hL hlim]
    generalize calcQ cfg lambda (d.F i) (d.L i) b.V = Q at hQ ⊢
    generalize stageGains L N cfg S c b.gains i Q = r
    cases r with
    | ok r =>
      cases r with
      | none => rfl
      | some p =>
        obtain ⟨kv, K⟩ := p
        simp only [Res.map, Res.bind_ok, Option.map_some]
        rw [hQ, updateV_mirror hO]
        show Res.ok (true, BwState.mk _ (b.dV0 + FOps.dot (-kv) (-Q.Qu))
          (b.dV1 + lit (1 / 2) * FOps.dot (-kv) (FOps.mulVec Q.Quu (-kv))) _) = _
        rw [hO.dot_neg_neg, hO.mulVec, hO.dot_neg_neg]
        unfold BwState.mirror Gains.mirror
        simp only [Res.ok.injEq, Prod.mk.injEq, true_and, BwState.mk.injEq, Gains.mk.injEq, and_true]
        funext j
        by_cases hj : j = i
        · subst hj; simp
        · simp [Function.update_of_ne hj]
    | _ => rfl

theorem bwLoop_mirror (c : Ctrl n m α) (d : Derivs n m α) (lambda : α) (i : ℕ) (b : BwState n m α) :
    bwLoop L N cfg S.mirror c.mirror d.mirror lambda i b.mirror =
      (bwLoop L N cfg S c d lambda i b).map fun p => (p.1, p.2.mirror) := by
  induction i generalizing b with
  | zero => rfl
  | succ i ih =>
    unfold bwLoop
    rw [bwStage_mirror hO hL hlim]
    generalize bwStage L N cfg S c d lambda i b = r
    cases r with
    | ok r =>
      obtain ⟨f, b'⟩ := r
      simp only [Res.map, Res.bind_ok]
      cases f with
      | true => simp only [if_true]; exact ih b'
      | false => rfl
    | _ => rfl

theorem bwRound_mirror (s : Solver n m α) :
    bwRound L N cfg S.mirror s.mirror = (bwRound L N cfg S s).map Solver.mirror fun p => (p.1.mirror, p.2) := by
  unfold bwRound backwardPass
  have := bwLoop_mirror (cfg := cfg) (N := N) hO hL hlim s.ctrl s.derivs s.lambda N
    { V := s.derivs.V, dV0 := 0, dV1 := 0, gains := s.gains }
  have h2 : bwLoop L N cfg S.mirror s.mirror.ctrl s.mirror.derivs s.mirror.lambda N
    { V := s.mirror.derivs.V, dV0 := 0, dV1 := 0, gains := s.mirror.gains } = _ := this
  rw [h2]
  generalize bwLoop L N cfg S s.ctrl s.derivs s.lambda N _ = r
  cases r with
  | ok r =>
    obtain ⟨f, b'⟩ := r
    cases f with
    | true => rfl
    | false =>
      show (if ltb cfg.lambdaMax ((s.setBw b').increase cfg).lambda = true then _ else _) = _
      simp only
      split <;> rfl
  | _ => rfl

theorem bwSearch_mirror (s : Solver n m α) :
    bwSearch L N cfg S.mirror s.mirror = ((bwSearch L N cfg S s).1.mirror, (bwSearch L N cfg S s).2) := by
  unfold bwSearch
  rw [loopM_map Solver.mirror (fun p : Solver n m α × Res Bool => (p.1.mirror, p.2)) (bwRound_mirror (cfg := cfg) (N := N) hO hL hlim)]
  cases loopM (bwRound L N cfg S) s <;> rfl

omit hL hlim in
theorem vnorm_mirror {k : ℕ} (v : Vec k α) : vnorm (-v) = vnorm v := by
  unfold vnorm sqNorm
  rw [hO.dot_neg_neg]

omit hL hlim in
theorem kRelNorm_mirror (s : Solver n m α) : kRelNorm N s.mirror = kRelNorm N s := by
  unfold kRelNorm
  congr 1
  funext i a
  show fmax a (vnorm (-s.gains.k i) / (vnorm (-s.ctrl.u i) + 1)) = _
  rw [vnorm_mirror hO, vnorm_mirror hO]

omit hL hlim in
theorem tryAlpha_mirror (s : Solver n m α) (a : α) : tryAlpha N cfg S.mirror s.mirror a = (tryAlpha N cfg S s a).mirror := by
  have h : forwardPass N S.mirror s.mirror.ctrl s.mirror.gains a = (forwardPass N S s.ctrl s.gains a).mirror :=
    forwardPass_mirror hO _ _ _
  unfold tryAlpha
  dsimp only
  rw [h]
  rfl

omit hL hlim in
theorem tryAlphas_mirror (s : Solver n m α) (as : List α) (w : Fwd n m α) :
    tryAlphas N cfg S.mirror s.mirror as w.mirror = (tryAlphas N cfg S s as w).mirror := by
  induction as generalizing w with
  | nil => rfl
  | cons a as ih =>
    unfold tryAlphas
    dsimp only
    rw [tryAlpha_mirror hO]
    show (if (tryAlpha N cfg S s a).success = true then _ else _) = _
    split
    · rfl
    · exact ih _

omit hL hlim in
theorem lineSearch_mirror (s : Solver n m α) : lineSearch N cfg S.mirror s.mirror = (lineSearch N cfg S s).mirror :=
  tryAlphas_mirror hO s cfg.alphaList
    { success := false, alpha := 0, actual := 0, expected := 0, ratio := 0, cand := s.ctrl }

omit hL hlim in
theorem finishStep_mirror (pre : List (Trace α)) (tr : Trace α) (w : Fwd n m α) (s : Solver n m α) :
    finishStep N cfg pre tr w.mirror s.mirror = ((finishStep N cfg pre tr w s).1.mirror, (finishStep N cfg pre tr w s).2) := by
  unfold finishStep
  dsimp only
  rw [show w.mirror.success = w.success from rfl]
  split <;> rfl

theorem procOnce_mirror (iter : ℕ) (s : Solver n m α) :
    procOnce L N cfg S.mirror iter s.mirror = ((procOnce L N cfg S iter s).1.mirror, (procOnce L N cfg S iter s).2) := by
  have hst : ({ s.mirror with trace := s.mirror.trace ++ [Trace.new iter], derivs := calcDerivs N cfg S.mirror s.mirror.ctrl s.mirror.derivs } :
      Solver n m α) = Solver.mirror { s with trace := s.trace ++ [Trace.new iter], derivs := calcDerivs N cfg S s.ctrl s.derivs } := by
    show ({ s.mirror with
      trace := s.trace ++ [Trace.new iter], derivs := calcDerivs N cfg S.mirror s.ctrl.mirror s.derivs.mirror } : Solver n m α) = _
    rw [calcDerivs_mirror hO]
    rfl
  unfold procOnce
  dsimp only
  rw [hst, bwSearch_mirror hO hL hlim]
  generalize bwSearch L N cfg S _ = r
  obtain ⟨s2, e⟩ := r
  cases e with
  | ok v =>
    cases v with
    | false => rfl
    | true =>
      dsimp only
      rw [kRelNorm_mirror hO, lineSearch_mirror hO]
      show (if (ltb _ _ && ltb s2.lambda _) = true then _ else _) = _
      split
      · rfl
      · exact finishStep_mirror hO _ _ _ _
  | _ => rfl

theorem optLoop_mirror (r iter : ℕ) (s : Solver n m α) :
    optLoop L N cfg S.mirror r iter s.mirror = ((optLoop L N cfg S r iter s).1.mirror, (optLoop L N cfg S r iter s).2) := by
  induction r generalizing iter s with
  | zero => rfl
  | succ r ih =>
    unfold optLoop
    rw [procOnce_mirror hO hL hlim]
    generalize procOnce L N cfg S iter s = q
    obtain ⟨t, e⟩ := q
    cases e with
    | ok v =>
      dsimp only
      split
      · rfl
      · exact ih _ _
    | _ => rfl

end Rel

section Solve
variable {n : ℕ} {md : α → ℕ} {P : Callbacks n md} {L : LLT α} {cfg : Config α}
  {lim : Option ((t : α) → Vec (md t) α × Vec (md t) α)} {dt t0 : α} {o : Obj n α} {x0 : Vec n α}
  {us : List (Σ k : ℕ, Vec k α)} {scratch : Scratch n (fun i => md (timeAt t0 dt i)) α}

theorem inputAt_mirror (hO : OddLaws α) {m : ℕ → ℕ} (us : List (Σ k : ℕ, Vec k α)) (i : ℕ) :
    (inputAt (mirrorUs us) i : Vec (m i) α) = -inputAt us i := by
  have hc : ∀ {a b : ℕ} (h : a = b) (v : Vec a α), (h ▸ (-v) : Vec b α) = -(h ▸ v : Vec b α) := by
    intro a b h v; subst h; rfl
  unfold inputAt mirrorUs
  rw [List.getElem?_map]
  cases us[i]? with
  | none => exact (zeroVec_mirror hO).symm
  | some p =>
    obtain ⟨k, v⟩ := p
    dsimp only [Option.map_some]
    split
    · exact hc _ _
    · exact (zeroVec_mirror hO).symm

/-- **C125** Reflection: `solve` for the reflected problem, limits, initial state and initial inputs returns the same value, the same
trace and the negated states and inputs. -/
theorem C125_mirror (hO : OddLaws α) (hL : ∀ {k : ℕ} (M : Mat k k α) (b : Vec k α), L.solve M (-b) = -L.solve M b)
    (hlim : ∀ g, lim = some g → ∀ t j, ltb ((g t).2 j) ((g t).1 j) = false) :
    solve L P.mirror (mirrorLim lim) dt cfg o.mirror t0 scratch.mirror (-x0) (mirrorUs us) =
      ((solve L P lim dt cfg o t0 scratch x0 us).1.mirror, (solve L P lim dt cfg o t0 scratch x0 us).2) := by
  have hlen : (mirrorUs us).length = us.length := by simp [mirrorUs]
  have hfst : (mirrorUs us).map Sigma.fst = us.map Sigma.fst := by simp [mirrorUs, Function.comp_def]
  have hS : stagesOf P.mirror (mirrorLim lim) t0 dt us.length = (stagesOf P lim t0 dt us.length).mirror := by
    unfold stagesOf Stages.mirror Callbacks.mirror mirrorLim
    dsimp only
    congr 1
    cases lim <;> rfl
  unfold solve
  rw [hlen, hfst]
  split
  · rfl
  · split
    · rfl
    · have hu : inputAt (m := fun i => md (timeAt t0 dt i)) (mirrorUs us) =
          fun i => -inputAt (m := fun i => md (timeAt t0 dt i)) us i := funext fun i => inputAt_mirror hO us i
      have hinit : initSolver us.length cfg (stagesOf P.mirror (mirrorLim lim) t0 dt us.length) (-x0) (inputAt (mirrorUs us))
          scratch.mirror.gains scratch.mirror.derivs scratch.mirror.dV0 scratch.mirror.dV1 =
          (initSolver us.length cfg (stagesOf P lim t0 dt us.length) x0 (inputAt us) scratch.gains scratch.derivs scratch.dV0
            scratch.dV1).mirror := by
        unfold initSolver
        dsimp only
        rw [hS, hu, rollout_mirror hO x0 (fun i _ => inputAt (m := fun i => md (timeAt t0 dt i)) us i)
          (fun i _ => -inputAt (m := fun i => md (timeAt t0 dt i)) us i) (fun _ _ => rfl)]
        rfl
      dsimp only
      rw [hinit, hS, optLoop_mirror hO hL]
      · refine Prod.ext ?_ rfl
        simp [Obj.mirror, ControlData.mirror, Ctrl.out, Ctrl.mirror, Solver.mirror, mirrorUs, Function.comp_def]
      · intro g hg i j
        cases hl : lim with
        | none => rw [hl] at hg; cases hg
        | some f =>
          rw [hl] at hg
          cases hg
          exact hlim f hl _ j

/-- The reflected state of the receding-horizon loop. -/
def Mpc.mirror (s : Mpc n α) : Mpc n α :=
  { s with x := -s.x, us := mirrorUs s.us, obj := s.obj.mirror,
           log := s.log.map fun l => { l with x := -l.x, u := ⟨l.u.1, -l.u.2⟩ } }

variable {cfgs : ℕ → Config α} {scr : ℕ → (t : α) → Scratch n (fun i => md (timeAt t dt i)) α}
  {shift : α → List (Σ k : ℕ, Vec k α) → Res (List (Σ k : ℕ, Vec k α))} {endT : α}

/-- **C125** Reflection of the receding-horizon loops: the reflected problem started in the reflected state gives the reflected
closed loop. -/
theorem C125_loop_mirror (hO : OddLaws α) (hL : ∀ {k : ℕ} (M : Mat k k α) (b : Vec k α), L.solve M (-b) = -L.solve M b)
    (hlim : ∀ g, lim = some g → ∀ t j, ltb ((g t).2 j) ((g t).1 j) = false)
    (hshift : ∀ t us, shift t (mirrorUs us) = (shift t us).map mirrorUs) :
    mpcLoop L P.mirror (mirrorLim lim) dt cfgs (fun k t => (scr k t).mirror) shift endT o.mirror t0 (-x0) (mirrorUs us) =
      (mpcLoop L P lim dt cfgs scr shift endT o t0 x0 us).map Mpc.mirror := by
  have hstep : ∀ s : Mpc n α, mpcStep L P.mirror (mirrorLim lim) dt cfgs (fun k t => (scr k t).mirror) shift endT s.mirror =
      (mpcStep L P lim dt cfgs scr shift endT s).map Mpc.mirror (Res.map Mpc.mirror) := by
    intro s
    unfold mpcStep
    rw [show s.mirror.t = s.t from rfl, show s.mirror.k = s.k from rfl, show s.mirror.obj = s.obj.mirror from rfl,
      show s.mirror.x = -s.x from rfl, show s.mirror.us = mirrorUs s.us from rfl, C125_mirror hO hL hlim]
    split
    · generalize solve L P lim dt (cfgs s.k) s.obj s.t (scr s.k s.t) s.x s.us = r
      obtain ⟨o1, e⟩ := r
      cases e with
      | ok v =>
        dsimp only
        rw [show o1.mirror.control.us = mirrorUs o1.control.us from rfl, hshift,
          show o1.mirror.control.xs = o1.control.xs.map (fun x => -x) from rfl, List.getElem?_map, List.getElem?_map,
          show (mirrorUs o1.control.us)[0]? = (o1.control.us[0]?).map fun p => ⟨p.1, -p.2⟩ from List.getElem?_map ..]
        cases o1.control.xs[0]? with
        | none => rfl
        | some y0 =>
          cases o1.control.us[0]? with
          | none => rfl
          | some v0 =>
            cases o1.control.xs[1]? with
            | none => rfl
            | some y1 =>
              cases shift s.t o1.control.us with
              | ok us' =>
                simp [Res.map, Res.bind, Sum.map, Mpc.mirror]
              | _ => rfl
      | _ => rfl
    · rfl
  unfold mpcLoop loopR
  have := loopM_map Mpc.mirror (Res.map Mpc.mirror) hstep
    { k := 0, t := t0, x := x0, us := us, obj := o, log := [] }
  have h2 : loopM (mpcStep L P.mirror (mirrorLim lim) dt cfgs (fun k t => (scr k t).mirror) shift endT)
    { k := 0, t := t0, x := -x0, us := mirrorUs us, obj := o.mirror, log := [] } = _ := this
  rw [h2]
  generalize loopM (mpcStep L P lim dt cfgs scr shift endT) _ = q
  cases q with
  | none => rfl
  | some r => cases r <;> rfl

end Solve

end Nmpc.DDP
