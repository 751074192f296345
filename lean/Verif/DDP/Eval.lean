import Verif.BoxQP.Eval
import Verif.DDP.Model

/-!
# Evaluating concrete DDP runs (see `Verif.BoxQP.Eval`)
-/

namespace Nmpc.DDP

variable {α : Type} [Add α] [Sub α] [Mul α] [Div α] [Neg α] [Zero α] [One α] [FOps α]
variable {n : ℕ} {m : ℕ → ℕ}

/-- `Res.bind` below `Option` (`none`: bound exceeded). -/
def bindO {ρ τ : Type} : Option (Res ρ) → (ρ → Option (Res τ)) → Option (Res τ)
  | none, _ => none
  | some (.ok r), f => f r
  | some .invalidArgument, _ => some .invalidArgument
  | some .runtimeError, _ => some .runtimeError
  | some .otherException, _ => some .otherException
  | some .ub, _ => some .ub
  | some .diverge, _ => some .diverge

theorem bindO_eq {ρ τ : Type} {a : Option (Res ρ)} {f : ρ → Option (Res τ)} {r : Res τ} {a' : Res ρ} {f' : ρ → Res τ}
    (ha : ∀ q, a = some q → a' = q) (hf : ∀ x q, f x = some q → f' x = q) (h : bindO a f = some r) :
    a'.bind f' = r := by
  cases a with
  | none => cases h
  | some q =>
    rw [ha q rfl]
    cases q with
    | ok x => exact hf _ _ h
    | _ => cases h; rfl

def constrainedGainsF {k : ℕ} (fuel : ℕ) (L : LLT α) (Q : QData n k α) (lower upper u initialK : Vec k α) :
    Option (Res (Option (Vec k α × Mat k n α))) :=
  bindO (BoxQP.solveF fuel L BoxQP.Config.default (freshQP k)
    { H := Q.QuuF, g := Q.Qu, lower := lower - u, upper := upper - u, init := initialK }) fun r =>
  if r.obj.retval < 0 then some (.ok none)
  else if r.obj.free.length > 0 then
    match r.obj.llt with
    | none => some .ub
    | some ⟨j, M⟩ =>
      if h : j = r.obj.free.length then
        let M' : Mat r.obj.free.length r.obj.free.length α := h ▸ M
        some (.ok (some (r.x, scatterRows r.obj.free (smulm (-1) (L.solveMat M' (rowsOf Q.QuxReg r.obj.free))))))
      else some .ub
  else some (.ok (some (r.x, fun _ _ => 0)))

theorem constrainedGainsF_eq {k : ℕ} {fuel : ℕ} {L : LLT α} {Q : QData n k α} {lower upper u ik : Vec k α}
    {r : Res (Option (Vec k α × Mat k n α))} (h : constrainedGainsF fuel L Q lower upper u ik = some r) :
    constrainedGains L Q lower upper u ik = r := by
  unfold constrainedGainsF at h
  unfold constrainedGains
  refine bindO_eq (fun q hq => BoxQP.solveF_eq hq) ?_ h
  intro x q hx
  split at hx
  · rename_i h1; rw [if_pos h1]; cases hx; rfl
  · rename_i h1; rw [if_neg h1]
    split at hx
    · rename_i h2; rw [if_pos h2]
      split at hx
      · rename_i h3; rw [h3]; cases hx; rfl
      · rename_i j M h3; rw [h3]; dsimp only at hx ⊢
        split at hx
        · rename_i h4; rw [dif_pos h4]; cases hx; rfl
        · rename_i h4; rw [dif_neg h4]; cases hx; rfl
    · rename_i h2; rw [if_neg h2]; cases hx; rfl

def stageGainsF (fuel : ℕ) (L : LLT α) (N : ℕ) (cfg : Config α) (S : Stages n m α) (c : Ctrl n m α) (g : Gains n m α)
    (i : ℕ) (Q : QData n (m i) α) : Option (Res (Option (Vec (m i) α × Mat (m i) n α))) :=
  if 0 < m i then
    if cfg.withConstraint then
      match S.lim with
      | none => some .otherException
      | some lim => constrainedGainsF fuel L Q (lim i).1 (lim i).2 (c.u i) (initialK N g i)
    else some (.ok (unconstrainedGains L Q))
  else some (.ok (some (fun _ => 0, fun _ _ => 0)))

theorem stageGainsF_eq {fuel : ℕ} {L : LLT α} {N : ℕ} {cfg : Config α} {S : Stages n m α} {c : Ctrl n m α}
    {g : Gains n m α} {i : ℕ} {Q : QData n (m i) α} {r : Res (Option (Vec (m i) α × Mat (m i) n α))}
    (h : stageGainsF fuel L N cfg S c g i Q = some r) : stageGains L N cfg S c g i Q = r := by
  unfold stageGainsF at h
  unfold stageGains
  split at h
  · rename_i h1; rw [if_pos h1]
    split at h
    · rename_i h2; rw [if_pos h2]
      split at h
      · rename_i h3; rw [h3]; cases h; rfl
      · rename_i h3; rw [h3]; exact constrainedGainsF_eq h
    · rename_i h2; rw [if_neg h2]; cases h; rfl
  · rename_i h1; rw [if_neg h1]; cases h; rfl

def bwLoopF (fuel : ℕ) (L : LLT α) (N : ℕ) (cfg : Config α) (S : Stages n m α) (c : Ctrl n m α) (d : Derivs n m α)
    (lambda : α) : ℕ → BwState n m α → Option (Res (Bool × BwState n m α))
  | 0, s => some (.ok (true, s))
  | i + 1, s =>
    if cfg.useSecond then some .runtimeError
    else
      let Q := calcQ cfg lambda (d.F i) (d.L i) s.V
      bindO (stageGainsF fuel L N cfg S c s.gains i Q) fun r =>
      match r with
      | none => some (.ok (false, s))
      | some (kv, K) =>
        bwLoopF fuel L N cfg S c d lambda i
          { V := updateV Q kv K
            dV0 := s.dV0 + FOps.dot kv Q.Qu
            dV1 := s.dV1 + lit (1 / 2) * FOps.dot kv (FOps.mulVec Q.Quu kv)
            gains := { k := Function.update s.gains.k i kv, K := Function.update s.gains.K i K } }

theorem bwLoopF_eq {fuel : ℕ} {L : LLT α} {N : ℕ} {cfg : Config α} {S : Stages n m α} {c : Ctrl n m α}
    {d : Derivs n m α} {lambda : α} {i : ℕ} {s : BwState n m α} {r : Res (Bool × BwState n m α)}
    (h : bwLoopF fuel L N cfg S c d lambda i s = some r) : bwLoop L N cfg S c d lambda i s = r := by
  induction i generalizing s r with
  | zero => cases h; rfl
  | succ i ih =>
    unfold bwLoopF at h
    unfold bwLoop bwStage
    split at h
    · rename_i h1; rw [if_pos h1]; cases h; rfl
    · rename_i h1; rw [if_neg h1]
      dsimp only at h ⊢
      have : ∀ (a : Res (Option (Vec (m i) α × Mat (m i) n α))) (f : Option (Vec (m i) α × Mat (m i) n α) → Res (Bool × BwState n m α))
        (g : Bool × BwState n m α → Res (Bool × BwState n m α)), (a.bind f).bind g = a.bind fun x => (f x).bind g := by
        intro a f g; cases a <;> rfl
      rw [this]
      refine bindO_eq (fun q hq => stageGainsF_eq hq) ?_ h
      intro x q hx
      cases x with
      | none => cases hx; rfl
      | some x => obtain ⟨kv, K⟩ := x; exact ih hx

/-- Bounded version of the regularisation loop. -/
def bwRoundF (fuel : ℕ) (L : LLT α) (N : ℕ) (cfg : Config α) (S : Stages n m α) (s : Solver n m α) :
    Option (Solver n m α ⊕ (Solver n m α × Res Bool)) :=
  match bwLoopF fuel L N cfg S s.ctrl s.derivs s.lambda N { V := s.derivs.V, dV0 := 0, dV1 := 0, gains := s.gains } with
  | none => none
  | some (.ok (true, b)) => some (.inr (s.setBw b, .ok true))
  | some (.ok (false, b)) =>
    let s' := (s.setBw b).increase cfg
    if ltb cfg.lambdaMax s'.lambda then some (.inr (s', .ok false)) else some (.inl s')
  | some .invalidArgument => some (.inr (s, .invalidArgument))
  | some .runtimeError => some (.inr (s, .runtimeError))
  | some .otherException => some (.inr (s, .otherException))
  | some .ub => some (.inr (s, .ub))
  | some .diverge => some (.inr (s, .diverge))

theorem bwRoundF_eq {fuel : ℕ} {L : LLT α} {N : ℕ} {cfg : Config α} {S : Stages n m α} {s : Solver n m α}
    {r : Solver n m α ⊕ (Solver n m α × Res Bool)} (h : bwRoundF fuel L N cfg S s = some r) :
    bwRound L N cfg S s = r := by
  unfold bwRoundF at h
  unfold bwRound backwardPass
  split at h
  · cases h
  · rename_i b hb; rw [bwLoopF_eq hb]; cases h; rfl
  · rename_i b hb; rw [bwLoopF_eq hb]; dsimp only at h ⊢
    split at h
    · rename_i h1; rw [if_pos h1]; cases h; rfl
    · rename_i h1; rw [if_neg h1]; cases h; rfl
  all_goals
    rename_i hb; rw [bwLoopF_eq hb]; cases h; rfl

def bwSearchF (fuel : ℕ) (L : LLT α) (N : ℕ) (cfg : Config α) (S : Stages n m α) (s : Solver n m α) :
    Option (Solver n m α × Res Bool) := loopFO (bwRoundF fuel L N cfg S) fuel s

theorem bwSearchF_eq {fuel : ℕ} {L : LLT α} {N : ℕ} {cfg : Config α} {S : Stages n m α} {s : Solver n m α}
    {r : Solver n m α × Res Bool} (h : bwSearchF fuel L N cfg S s = some r) : bwSearch L N cfg S s = r := by
  unfold bwSearch
  rw [loopFO_eq (fun s r => bwRoundF_eq) h]

def procOnceF (fuel : ℕ) (L : LLT α) (N : ℕ) (cfg : Config α) (S : Stages n m α) (iter : ℕ) (s : Solver n m α) :
    Option (Solver n m α × Res ℤ) :=
  let pre := s.trace
  let tr0 : Trace α := Trace.new iter
  let s1 := { s with trace := pre ++ [tr0], derivs := calcDerivs N cfg S s.ctrl s.derivs }
  match bwSearchF fuel L N cfg S s1 with
  | none => none
  | some (s2, .ok false) => some (s2, .ok (-1))
  | some (s2, .invalidArgument) => some (s2, .invalidArgument)
  | some (s2, .runtimeError) => some (s2, .runtimeError)
  | some (s2, .otherException) => some (s2, .otherException)
  | some (s2, .ub) => some (s2, .ub)
  | some (s2, .diverge) => some (s2, .diverge)
  | some (s2, .ok true) =>
    let krn := kRelNorm N s2
    let tr1 := { tr0 with kRelNorm := krn }
    if ltb krn cfg.kRelNormThre && ltb s2.lambda cfg.lambdaThre then
      some ({ s2 with trace := pre ++ [tr1] }, .ok 1)
    else
      let w := lineSearch N cfg S s2
      let tr2 := { tr1 with alpha := w.alpha, actual := w.actual, expected := w.expected, ratio := w.ratio }
      some (finishStep N cfg pre tr2 w s2)

theorem procOnceF_eq {fuel : ℕ} {L : LLT α} {N : ℕ} {cfg : Config α} {S : Stages n m α} {iter : ℕ} {s : Solver n m α}
    {r : Solver n m α × Res ℤ} (h : procOnceF fuel L N cfg S iter s = some r) : procOnce L N cfg S iter s = r := by
  unfold procOnceF at h
  unfold procOnce
  dsimp only at h ⊢
  split at h
  · cases h
  all_goals
    rename_i s2 hb; rw [bwSearchF_eq hb]; dsimp only at h ⊢
  all_goals try (cases h; rfl)
  split at h
  · rename_i h1; rw [if_pos h1]; cases h; rfl
  · rename_i h1; rw [if_neg h1]; cases h; rfl

def optLoopF (fuel : ℕ) (L : LLT α) (N : ℕ) (cfg : Config α) (S : Stages n m α) :
    ℕ → ℕ → Solver n m α → Option (Solver n m α × Res ℤ)
  | 0, _, s => some (s, .ok 0)
  | r + 1, iter, s =>
    match procOnceF fuel L N cfg S iter s with
    | none => none
    | some (s', .ok v) => if v ≠ 0 then some (s', .ok v) else optLoopF fuel L N cfg S r (iter + 1) s'
    | some (s', e) => some (s', e)

theorem optLoopF_eq {fuel : ℕ} {L : LLT α} {N : ℕ} {cfg : Config α} {S : Stages n m α} {r iter : ℕ} {s : Solver n m α}
    {q : Solver n m α × Res ℤ} (h : optLoopF fuel L N cfg S r iter s = some q) : optLoop L N cfg S r iter s = q := by
  induction r generalizing iter s with
  | zero => cases h; rfl
  | succ r ih =>
    unfold optLoopF at h
    unfold optLoop
    split at h
    · cases h
    · rename_i s' v hp; rw [procOnceF_eq hp]; dsimp only
      split at h
      · rename_i h1; rw [if_pos h1]; cases h; rfl
      · rename_i h1; rw [if_neg h1]; exact ih h
    · rename_i s' e hne hp; rw [procOnceF_eq hp]
      cases h
      cases e with
      | ok v => exact absurd rfl (hne v)
      | _ => rfl

/-- `solve` with bounded loops. -/
def solveF {md : α → ℕ} (fuel : ℕ) (L : LLT α) (P : Callbacks n md)
    (lim : Option ((t : α) → Vec (md t) α × Vec (md t) α)) (dt : α) (cfg : Config α) (o : Obj n α) (t0 : α)
    (scratch : Scratch n (fun i => md (timeAt t0 dt i)) α) (x0 : Vec n α) (us : List (Σ k : ℕ, Vec k α)) :
    Option (Obj n α × Res Bool) :=
  if (us.length : ℤ) ≠ cfg.horizon then some (o, .invalidArgument)
  else if (List.range us.length).any fun i => (us.map Sigma.fst)[i]? != some (md (timeAt t0 dt i)) then
    some (o, .runtimeError)
  else
    let N := us.length
    let S := stagesOf P lim t0 dt N
    let s0 := initSolver N cfg S x0 (inputAt us) scratch.gains scratch.derivs scratch.dV0 scratch.dV1
    (optLoopF fuel L N cfg S cfg.maxIter.toNat 1 s0).map fun r =>
      ({ control := r.1.ctrl.out N, trace := r.1.trace }, r.2.map fun v => v == 1)

theorem solveF_eq {md : α → ℕ} {fuel : ℕ} {L : LLT α} {P : Callbacks n md}
    {lim : Option ((t : α) → Vec (md t) α × Vec (md t) α)} {dt : α} {cfg : Config α} {o : Obj n α} {t0 : α}
    {scratch : Scratch n (fun i => md (timeAt t0 dt i)) α} {x0 : Vec n α} {us : List (Σ k : ℕ, Vec k α)}
    {r : Obj n α × Res Bool} (h : solveF fuel L P lim dt cfg o t0 scratch x0 us = some r) :
    solve L P lim dt cfg o t0 scratch x0 us = r := by
  unfold solveF at h
  unfold solve
  split at h
  · rename_i h1; rw [if_pos h1]; cases h; rfl
  · rename_i h1; rw [if_neg h1]
    split at h
    · rename_i h2; rw [if_pos h2]; cases h; rfl
    · rename_i h2; rw [if_neg h2]
      dsimp only at h ⊢
      rw [Option.map_eq_some_iff] at h
      obtain ⟨q, h3, rfl⟩ := h
      rw [optLoopF_eq h3]

end Nmpc.DDP
