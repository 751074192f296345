import Verif.DDP.Lemmas
import Verif.BoxQP.Generic

/-!
# Properties of `DDPSolver::solve` for any arithmetic
-/

namespace Nmpc.DDP

set_option linter.unusedSectionVars false

variable {α : Type} [Add α] [Sub α] [Mul α] [Div α] [Neg α] [Zero α] [One α] [FOps α]
variable {n : ℕ} {m : ℕ → ℕ} {L : LLT α} {N : ℕ} {cfg : Config α} {S : Stages n m α}

/-! ## Which outcomes are possible -/

theorem boxqp_cases {k : ℕ} (c : BoxQP.Config α) (o : BoxQP.Obj k α) (a : BoxQP.Args k α) :
    (∃ r, BoxQP.solve L c o a = .ok r) ∨ BoxQP.solve L c o a = .diverge := by
  rcases BoxQP.C10_history (L := L) (c := c) (o := o) (a := a) o with ⟨r, _, h, _⟩ | ⟨h, _⟩
  · exact .inl ⟨r, h⟩
  · exact .inr h

/-- What a successful gain computation with limits returns. -/
theorem constrainedGains_out {k : ℕ} (Q : QData n k α) (lower upper u ik : Vec k α) :
    (constrainedGains L Q lower upper u ik = .diverge ∧
      BoxQP.solve L BoxQP.Config.default (freshQP k)
        { H := Q.QuuF, g := Q.Qu, lower := lower - u, upper := upper - u, init := ik } = .diverge) ∨
    ∃ r, BoxQP.solve L BoxQP.Config.default (freshQP k)
        { H := Q.QuuF, g := Q.Qu, lower := lower - u, upper := upper - u, init := ik } = .ok r ∧
      ((r.obj.retval < 0 ∧ constrainedGains L Q lower upper u ik = .ok none) ∨
       (0 ≤ r.obj.retval ∧ r.obj.free = [] ∧
          constrainedGains L Q lower upper u ik = .ok (some (r.x, fun _ _ => 0))) ∨
       (0 ≤ r.obj.retval ∧ r.obj.free ≠ [] ∧ L.ok (BoxQP.subMat Q.QuuF r.obj.free r.obj.free) = true ∧
          constrainedGains L Q lower upper u ik = .ok (some (r.x, scatterRows r.obj.free
            (smulm (-1) (L.solveMat (BoxQP.subMat Q.QuuF r.obj.free r.obj.free)
              (rowsOf Q.QuxReg r.obj.free))))))) := by
  rcases boxqp_cases (L := L) BoxQP.Config.default (freshQP k)
    { H := Q.QuuF, g := Q.Qu, lower := lower - u, upper := upper - u, init := ik } with ⟨r, hr⟩ | hr
  · right
    refine ⟨r, hr, ?_⟩
    unfold constrainedGains
    rw [hr, Res.bind_ok]
    by_cases h1 : r.obj.retval < 0
    · exact .inl ⟨h1, by rw [if_pos h1]⟩
    · right
      rw [if_neg h1]
      have h8 := (BoxQP.C08_factorisation hr).2 (by omega)
      by_cases h2 : r.obj.free = []
      · left
        refine ⟨by omega, h2, ?_⟩
        rw [if_neg (by rw [h2]; simp)]
      · right
        have h8' := h8.resolve_left h2
        refine ⟨by omega, h2, h8'.2, ?_⟩
        rw [if_pos (List.length_pos_iff.2 h2), h8'.1]
        simp
  · left
    refine ⟨?_, hr⟩
    unfold constrainedGains
    rw [hr]; rfl

theorem stageGains_kind (c : Ctrl n m α) (g : Gains n m α) (i : ℕ) (Q : QData n (m i) α) :
    (∃ r, stageGains L N cfg S c g i Q = .ok r) ∨
    (stageGains L N cfg S c g i Q = .diverge ∧ cfg.withConstraint = true) ∨
    (stageGains L N cfg S c g i Q = .otherException ∧ cfg.withConstraint = true ∧ S.lim = none) := by
  unfold stageGains
  split
  · split
    · rename_i hc
      split
      · rename_i hl; exact .inr (.inr ⟨rfl, hc, hl⟩)
      · rename_i lim hl
        rcases constrainedGains_out (L := L) Q (lim i).1 (lim i).2 (c.u i) (initialK N g i) with h | ⟨r, _, h | h | h⟩
        · exact .inr (.inl ⟨h.1, hc⟩)
        · exact .inl ⟨_, h.2⟩
        · exact .inl ⟨_, h.2.2⟩
        · exact .inl ⟨_, h.2.2.2⟩
    · exact .inl ⟨_, rfl⟩
  · exact .inl ⟨_, rfl⟩

theorem bwLoop_kind (c : Ctrl n m α) (d : Derivs n m α) (lambda : α) (i : ℕ) (s : BwState n m α) :
    (∃ r, bwLoop L N cfg S c d lambda i s = .ok r) ∨
    (bwLoop L N cfg S c d lambda i s = .diverge ∧ cfg.withConstraint = true) ∨
    (bwLoop L N cfg S c d lambda i s = .otherException ∧ cfg.withConstraint = true ∧ S.lim = none) ∨
    (bwLoop L N cfg S c d lambda i s = .runtimeError ∧ cfg.useSecond = true) := by
  induction i generalizing s with
  | zero => exact .inl ⟨_, rfl⟩
  | succ i ih =>
    unfold bwLoop bwStage
    split
    · rename_i h
      exact .inr (.inr (.inr ⟨rfl, h⟩))
    · dsimp only
      rcases stageGains_kind (L := L) (N := N) (cfg := cfg) (S := S) c s.gains i
        (calcQ cfg lambda (d.F i) (d.L i) s.V) with ⟨r, h⟩ | ⟨h, hc⟩ | ⟨h, hc⟩
      · rw [h, Res.bind_ok]
        cases r with
        | none => exact .inl ⟨_, rfl⟩
        | some r => exact ih _
      · rw [h]; exact .inr (.inl ⟨rfl, hc⟩)
      · rw [h]; exact .inr (.inr (.inl ⟨rfl, hc⟩))

theorem bwSearch_kind (s : Solver n m α) :
    (∃ b, (bwSearch L N cfg S s).2 = .ok b) ∨
    (bwSearch L N cfg S s).2 = .diverge ∨
    ((bwSearch L N cfg S s).2 = .otherException ∧ cfg.withConstraint = true ∧ S.lim = none) ∨
    ((bwSearch L N cfg S s).2 = .runtimeError ∧ cfg.useSecond = true) := by
  refine bwSearch_rule (fun _ => True)
    (fun r => (∃ b, r.2 = .ok b) ∨ r.2 = .diverge ∨
      (r.2 = .otherException ∧ cfg.withConstraint = true ∧ S.lim = none) ∨
      (r.2 = .runtimeError ∧ cfg.useSecond = true)) trivial (fun _ _ _ _ _ => trivial)
    (fun _ _ _ _ => .inl ⟨_, rfl⟩) (fun _ _ _ _ _ => .inl ⟨_, rfl⟩) ?_ (fun _ => .inr (.inl rfl))
  intro s e _ he h
  rcases bwLoop_kind (L := L) (N := N) (cfg := cfg) (S := S) s.ctrl s.derivs s.lambda N
    { V := s.derivs.V, dV0 := 0, dV1 := 0, gains := s.gains } with ⟨r, h'⟩ | ⟨h', hc⟩ | ⟨h', hc⟩ | ⟨h', hc⟩ <;>
  · rw [backwardPass, h'] at h
    subst h
    first
    | exact absurd rfl (he _)
    | exact .inr (.inl rfl)
    | exact .inr (.inr (.inl ⟨rfl, hc⟩))
    | exact .inr (.inr (.inr ⟨rfl, hc⟩))

theorem finishStep_ok (pre : List (Trace α)) (tr : Trace α) (w : Fwd n m α) (s : Solver n m α) :
    ∃ v, (finishStep N cfg pre tr w s).2 = .ok v := ⟨_, rfl⟩

theorem procOnce_kind (iter : ℕ) (s : Solver n m α) :
    (∃ v, (procOnce L N cfg S iter s).2 = .ok v) ∨
    (procOnce L N cfg S iter s).2 = .diverge ∨
    ((procOnce L N cfg S iter s).2 = .otherException ∧ cfg.withConstraint = true ∧ S.lim = none) ∨
    ((procOnce L N cfg S iter s).2 = .runtimeError ∧ cfg.useSecond = true) := by
  have := procOnce_out (L := L) (N := N) (cfg := cfg) (S := S) iter s
  generalize procOnce L N cfg S iter s = r at this
  cases this with
  | bwFail s2 hb => exact .inl ⟨_, rfl⟩
  | err s2 e he hb =>
    have := bwSearch_kind (L := L) (N := N) (cfg := cfg) (S := S) (startIter N cfg S iter s)
    rw [hb] at this
    rcases this with ⟨b, h⟩ | h | ⟨h, hc⟩ | ⟨h, hc⟩ <;> dsimp only at h <;> subst h
    · exact absurd rfl (he _)
    · exact .inr (.inl rfl)
    · exact .inr (.inr (.inl ⟨rfl, hc⟩))
    · exact .inr (.inr (.inr ⟨rfl, hc⟩))
  | small s2 hb hk hl => exact .inl ⟨_, rfl⟩
  | full s2 hb hk => exact .inl (finishStep_ok _ _ _ _)

theorem optLoop_kind (r k : ℕ) (s : Solver n m α) :
    (∃ v, (optLoop L N cfg S r k s).2 = .ok v) ∨
    (optLoop L N cfg S r k s).2 = .diverge ∨
    ((optLoop L N cfg S r k s).2 = .otherException ∧ cfg.withConstraint = true ∧ S.lim = none) ∨
    ((optLoop L N cfg S r k s).2 = .runtimeError ∧ cfg.useSecond = true) := by
  refine optLoop_rule (fun _ _ => True) (fun q => (∃ v, q.2 = .ok v) ∨ q.2 = .diverge ∨
    (q.2 = .otherException ∧ cfg.withConstraint = true ∧ S.lim = none) ∨
    (q.2 = .runtimeError ∧ cfg.useSecond = true)) r k trivial (fun _ _ _ _ _ _ _ => trivial) ?_
    (fun _ _ => .inl ⟨_, rfl⟩)
  intro j s s' e _ _ _ h _
  have := procOnce_kind (L := L) (N := N) (cfg := cfg) (S := S) j s
  rw [h] at this
  exact this

/-! ## The arguments of `solve` -/

variable {md : α → ℕ} {P : Callbacks n md} {lim : Option ((t : α) → Vec (md t) α × Vec (md t) α)}
  {dt t0 : α} {o o' : Obj n α} {x0 : Vec n α} {us : List (Σ k : ℕ, Vec k α)}
  {scratch : Scratch n (fun i => md (timeAt t0 dt i)) α}

/-- All given inputs have the dimension required by the problem at their time. -/
def DimsOk (md : α → ℕ) (t0 dt : α) (us : List (Σ k : ℕ, Vec k α)) : Prop :=
  ∀ i (h : i < us.length), (us[i]).1 = md (t0 + lit (i : ℚ) * dt)

theorem dims_check : ((List.range us.length).any fun i => (us.map Sigma.fst)[i]? != some (md (timeAt t0 dt i))) = false
    ↔ DimsOk md t0 dt us := by
  simp only [List.any_eq_false, List.mem_range, bne_iff_ne, ne_eq, not_not, DimsOk]
  refine forall_congr' fun i => ?_
  constructor
  · intro h hi
    have := h hi
    rw [List.getElem?_map, List.getElem?_eq_getElem hi] at this
    simpa [timeAt] using this
  · intro h hi
    rw [List.getElem?_map, List.getElem?_eq_getElem hi]
    simpa [timeAt] using h hi

/-- Solver state when the optimisation loop starts. -/
abbrev start (P : Callbacks n md) (lim : Option ((t : α) → Vec (md t) α × Vec (md t) α)) (dt : α) (cfg : Config α)
    (t0 : α) (scratch : Scratch n (fun i => md (timeAt t0 dt i)) α) (x0 : Vec n α) (us : List (Σ k : ℕ, Vec k α)) :
    Solver n (fun i => md (timeAt t0 dt i)) α :=
  initSolver us.length cfg (stagesOf P lim t0 dt us.length) x0 (inputAt us) scratch.gains scratch.derivs
    scratch.dV0 scratch.dV1

/-- The optimisation loop run by `solve`. -/
abbrev final (L : LLT α) (P : Callbacks n md) (lim : Option ((t : α) → Vec (md t) α × Vec (md t) α)) (dt : α)
    (cfg : Config α) (t0 : α) (scratch : Scratch n (fun i => md (timeAt t0 dt i)) α) (x0 : Vec n α)
    (us : List (Σ k : ℕ, Vec k α)) : Solver n (fun i => md (timeAt t0 dt i)) α × Res ℤ :=
  optLoop L us.length cfg (stagesOf P lim t0 dt us.length) cfg.maxIter.toNat 1
    (start P lim dt cfg t0 scratch x0 us)

theorem solve_valid (hN : (us.length : ℤ) = cfg.horizon) (hd : DimsOk md t0 dt us) :
    solve L P lim dt cfg o t0 scratch x0 us =
      ({ control := (final L P lim dt cfg t0 scratch x0 us).1.ctrl.out us.length
         trace := (final L P lim dt cfg t0 scratch x0 us).1.trace },
       (final L P lim dt cfg t0 scratch x0 us).2.map fun v => v == 1) := by
  unfold solve
  rw [if_neg (not_not.2 hN), if_neg (by rw [dims_check.2 hd]; simp)]

theorem solve_invalid_length (hN : (us.length : ℤ) ≠ cfg.horizon) :
    solve L P lim dt cfg o t0 scratch x0 us = (o, .invalidArgument) := by
  unfold solve; rw [if_pos hN]

theorem solve_invalid_dims (hN : (us.length : ℤ) = cfg.horizon) (hd : ¬ DimsOk md t0 dt us) :
    solve L P lim dt cfg o t0 scratch x0 us = (o, .runtimeError) := by
  unfold solve
  rw [if_neg (not_not.2 hN), if_pos]
  rw [← dims_check, Bool.not_eq_false] at hd
  exact hd

theorem inputAt_eq {m : ℕ → ℕ} {i : ℕ} (hi : i < us.length) (hd : (us[i]).1 = m i) :
    (⟨m i, inputAt us i⟩ : Σ k : ℕ, Vec k α) = us[i] := by
  unfold inputAt
  rw [List.getElem?_eq_getElem hi]
  generalize us[i] = q at hd
  obtain ⟨k, v⟩ := q
  dsimp only at hd
  subst hd
  simp

end Nmpc.DDP
