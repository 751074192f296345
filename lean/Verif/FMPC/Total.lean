import Verif.FMPC.Update

/-!
# FMPC: calls with valid arguments are defined and return (C58)
-/

set_option linter.unusedSectionVars false

namespace Nmpc.FMPC

open DDP (FDeriv LDeriv VDeriv timeAt)

section Generic
variable {α : Type} [Add α] [Sub α] [Mul α] [Div α] [Neg α] [Zero α] [One α] [FOps α]

/-- Conditions under which no member function evaluates the minimum or maximum of an empty vector. -/
structure NoEmpty (N n : ℕ) (p : ℕ → ℕ) (cfg : Config α) : Prop where
  barrier : cfg.updateBarrierEps = true → ∀ i < N, 0 < p i
  merit : cfg.enableLineSearch = true → cfg.scaleFromMultipliers = true → 0 < n ∧ ∀ i < N, 0 < p i

section Stage
variable {n : ℕ} {m p : ℕ → ℕ} {L : GainSolver α} {N : ℕ} {cfg : Config α} {S : Stages n m p α} {x0 : Vec n α}

theorem any_empty_false (h : ∀ i < N, 0 < p i) : ((List.range N).any fun i => p i == 0) = false := by
  simp only [List.any_eq_false, List.mem_range, beq_iff_eq]
  intro i hi
  have := h i hi
  omega

theorem prepare_ok (h : NoEmpty N n p cfg) (w : Solver n m p α) : ∃ w', prepare N cfg S w = .ok w' := by
  unfold prepare
  cases hu : cfg.updateBarrierEps with
  | true =>
    rw [if_pos rfl]
    unfold updateEps
    rw [any_empty_false (h.barrier hu)]
    exact ⟨_, rfl⟩
  | false => exact ⟨_, rfl⟩

theorem setupMerit_ok (h : NoEmpty N n p cfg) (hl : cfg.enableLineSearch = true) (w : Solver n m p α) :
    ∃ mt, setupMerit N cfg S x0 w = .ok mt := by
  unfold setupMerit meritScale
  dsimp only
  cases hs : cfg.scaleFromMultipliers with
  | true =>
    obtain ⟨h1, h2⟩ := h.merit hl hs
    rw [if_pos rfl, any_empty_false h2, show (n == 0) = false by simp; omega]
    exact ⟨_, rfl⟩
  | false => exact ⟨_, rfl⟩

theorem procOnce_ok (hH : HalvingLaw α) (h : NoEmpty N n p cfg) (iter : ℕ) (w : Solver n m p α) :
    ∃ q, procOnce L N cfg S x0 iter w = .ok q := by
  have hnd := procOnce_ne_diverge (L := L) (N := N) (cfg := cfg) (S := S) (x0 := x0) hH iter w
  have := procOnce_out (L := L) (N := N) (cfg := cfg) (S := S) (x0 := x0) iter w
  generalize procOnce L N cfg S x0 iter w = q at this hnd
  cases this with
  | ubEps hu =>
    obtain ⟨w', hw'⟩ := prepare_ok (S := S) h w
    rw [hw'] at hu; cases hu
  | update e he hk w2 hb w3 hf r hr =>
    have hu := updateVariables_out (N := N) (cfg := cfg) (S := S) (x0 := x0) w3
    rw [hr] at hu
    cases hu with
    | reject => exact ⟨_, rfl⟩
    | step => exact ⟨_, rfl⟩
    | ub hl =>
      exfalso
      have hls := lineSearch_out (N := N) (cfg := cfg) (S := S) (x0 := x0) w3 (alphaMax N w3.var.s w3.delta.s)
      rw [hl] at hls
      generalize hx : (Res.ub : Res (α × Solver n m p α)) = x at hls
      cases hls with
      | ub h1 h2 =>
        obtain ⟨mt, hmt⟩ := setupMerit_ok (S := S) (x0 := x0) h h1 w3
        rw [hmt] at h2; cases h2
      | _ => cases hx
    | diverge hl => exact absurd rfl hnd
  | _ => exact ⟨_, rfl⟩

theorem optLoop_ok (hH : HalvingLaw α) (h : NoEmpty N n p cfg) (r iter : ℕ) (st : Status) (w : Solver n m p α) :
    ∃ q, optLoop L N cfg S x0 r iter st w = .ok q := by
  induction r generalizing iter st w with
  | zero => exact ⟨_, rfl⟩
  | succ r ih =>
    obtain ⟨q, hq⟩ := procOnce_ok (L := L) (S := S) (x0 := x0) hH h iter w
    unfold optLoop
    rw [hq]
    dsimp only [Res.bind_ok]
    split
    · exact ⟨_, rfl⟩
    · exact ih _ _ _

end Stage

section Solve
variable {n : ℕ} {md pd : α → ℕ} {L : GainSolver α} {P : Callbacks n md pd} {dt : α} {cfg : Config α} {o : Obj n α}
  {t0 : α} {sc : Scratch n (fun i => md (timeAt t0 dt i)) (fun i => pd (timeAt t0 dt i)) α} {x0 : Vec n α}
  {init : VarL n α}

/-- **C58**, any arithmetic in which halving reaches 1e-10: a call that passes the checks returns a status. -/
theorem C58_returns (hH : HalvingLaw α) {v : VarL n α} (hv : startVar P dt cfg t0 init = .ok v)
    (hc : checkVariable md pd t0 dt cfg.horizon v = .ok ())
    (hne : NoEmpty cfg.horizon.toNat n (fun i => pd (timeAt t0 dt i)) cfg) (hpl : 0 < cfg.maxIter ∨ cfg.printLevel < 3) :
    ∃ o' st, solve L P dt cfg o t0 sc x0 init = (o', .ok st) := by
  have hN : cfg.horizon.toNat = v.us.length := by
    have := (checkVariable_iff (md := md) (pd := pd) (t0 := t0) (dt := dt) (horizon := cfg.horizon) v).2.2.1 hc
    have := this.1.2.1
    omega
  rw [hN] at hne
  obtain ⟨⟨w, st⟩, hq⟩ := optLoop_ok (L := L) (S := stagesOf P t0 dt v.us.length) (x0 := x0) hH hne cfg.maxIter.toNat 1
    .uninitialized (initSolver v (startEps cfg o) sc)
  have hr : ∃ q, runSolver L v.us.length cfg (stagesOf P t0 dt v.us.length) x0 (initSolver v (startEps cfg o) sc) = .ok q := by
    unfold runSolver
    rw [hq]
    dsimp only [Res.bind_ok]
    obtain ⟨-, -, h3, -, -, h6⟩ := optLoop_trace rfl hq
    rw [if_neg]
    · exact ⟨_, rfl⟩
    · rintro ⟨h1, h2⟩
      rcases hpl with h | h
      · refine h6 (fun hs => ?_) h2
        have := h3.1 hs
        omega
      · omega
  obtain ⟨⟨w', st'⟩, hr⟩ := hr
  have := solve_out (L := L) (P := P) (dt := dt) (cfg := cfg) (o := o) (t0 := t0) (sc := sc) (x0 := x0) (init := init)
  generalize solve L P dt cfg o t0 sc x0 init = res at this
  cases this with
  | ubInit h => rw [hv] at h; cases h
  | invalid v' hv' hc' => rw [hv] at hv'; cases hv'; rw [hc] at hc'; cases hc'
  | runtime v' hv' hc' => rw [hv] at hv'; cases hv'; rw [hc] at hc'; cases hc'
  | ok => exact ⟨_, _, rfl⟩
  | bad v' hv' hc' o' e he hr' =>
    rw [hv] at hv'
    cases hv'
    rcases hr' with ⟨-, h⟩ | ⟨-, h⟩
    · rw [hr] at h; cases h
    · exact absurd hr (h _)

/-- `init_complementary_variable` on a variable with valid lists of states and inputs. -/
theorem initCompl_ok {k : ℕ} (hx : k ≤ init.xs.length) (hu : k ≤ init.us.length) (hs : k ≤ init.ss.length)
    (hn : k ≤ init.nus.length) (hd : ∀ i (h : i < init.us.length), i < k → init.us[i].1 = md (timeAt t0 dt i)) :
    ∃ v, initCompl P t0 dt k init = .ok v ∧
      (∀ i (h : i < v.ss.length), i < k → v.ss[i].1 = pd (timeAt t0 dt i)) ∧
      (∀ i (h : i < v.nus.length), i < k → v.nus[i].1 = pd (timeAt t0 dt i)) := by
  induction k with
  | zero => exact ⟨init, rfl, by intros; omega, by intros; omega⟩
  | succ k ih =>
    obtain ⟨v, hv, d1, d2⟩ := ih (by omega) (by omega) (by omega) (by omega) (fun i h hk => hd i h (by omega))
    obtain ⟨e1, e2, -, e4, e5, -⟩ := initCompl_length hv
    unfold initCompl
    rw [hv]
    dsimp only [Res.bind_ok]
    rw [e1, e2, List.getElem?_eq_getElem (by omega : k < init.xs.length), List.getElem?_eq_getElem (by omega : k < init.us.length)]
    dsimp only
    rw [if_pos (by omega), dif_pos (hd k (by omega) (by omega))]
    refine ⟨_, rfl, ?_, ?_⟩
    · intro i hi hik
      dsimp only at hi ⊢
      rw [List.length_set] at hi
      by_cases h : i = k
      · subst h; rw [List.getElem_set_self]
      · rw [List.getElem_set_ne (by omega)]; exact d1 i hi (by omega)
    · intro i hi hik
      dsimp only at hi ⊢
      rw [List.length_set] at hi
      by_cases h : i = k
      · subst h; rw [List.getElem_set_self]
      · rw [List.getElem_set_ne (by omega)]; exact d2 i hi (by omega)

end Solve
end Generic

section Real
variable {n : ℕ} {md pd : ℝ → ℕ} {L : GainSolver ℝ} {P : Callbacks n md pd} {dt : ℝ} {cfg : Config ℝ} {o : Obj n ℝ}
  {t0 : ℝ} {sc : Scratch n (fun i => md (timeAt t0 dt i)) (fun i => pd (timeAt t0 dt i)) ℝ} {x0 : Vec n ℝ}
  {init : VarL n ℝ}

/-- **C58.**  In exact arithmetic `solve` is defined, terminates and returns a status (no exception) for every problem,
configuration and warm start with lists of the right lengths and dimensions and non-negative slacks and multipliers
(recomputed first, and hence arbitrary, with `init_complementary_variable`), provided no minimum or maximum of an empty
vector is evaluated and the summary is not printed for `max_iter ≤ 0`. -/
theorem C58_defined (hl : LengthsOk cfg.horizon init)
    (hd : ∀ i (h : i < init.us.length), init.us[i].1 = md (timeAt t0 dt i))
    (hs : cfg.initComplementary = true ∨ (DimsOk md pd t0 dt init ∧ NonNeg init))
    (hne : NoEmpty cfg.horizon.toNat n (fun i => pd (timeAt t0 dt i)) cfg) (hpl : 0 < cfg.maxIter ∨ cfg.printLevel < 3) :
    ∃ o' st, solve L P dt cfg o t0 sc x0 init = (o', .ok st) := by
  have key : ∃ v, startVar P dt cfg t0 init = .ok v ∧ checkVariable md pd t0 dt cfg.horizon v = .ok () := by
    obtain ⟨l1, l2, l3, l4, l5⟩ := hl
    by_cases hi : cfg.initComplementary = true
    · obtain ⟨v, hv, d1, d2⟩ := initCompl_ok (P := P) (k := cfg.horizon.toNat) (by omega) (by omega) (by omega) (by omega)
        (fun i h _ => hd i h)
      have hsv : startVar P dt cfg t0 init = .ok v := by unfold startVar; rw [if_pos hi, hv]
      obtain ⟨e1, e2, e3, e4, e5, -⟩ := initCompl_length hv
      have hl' : LengthsOk cfg.horizon v := by
        refine ⟨?_, ?_, ?_, ?_, ?_⟩
        · rw [e1]; exact l1
        · rw [e2]; exact l2
        · rw [e3]; exact l3
        · rw [e4]; exact l4
        · rw [e5]; exact l5
      have hpos := startVar_pos (.inl hi) hsv hl'
      refine ⟨v, hsv, (checkVariable_iff v).2.2.2 ⟨hl', ⟨?_, ?_, ?_⟩, ?_, ?_⟩⟩
      · intro i h
        simp only [e2] at h ⊢
        exact hd i h
      · intro i h; exact d1 i h (by omega)
      · intro i h; exact d2 i h (by omega)
      · intro e he j
        simpa using (hpos.1 e he j).le
      · intro e he j
        simpa using (hpos.2 e he j).le
    · rcases hs with hs | hs
      · exact absurd hs hi
      · refine ⟨init, by unfold startVar; rw [if_neg hi], (checkVariable_iff init).2.2.2 ⟨⟨l1, l2, l3, l4, l5⟩, hs.1, hs.2⟩⟩
  obtain ⟨v, hv, hc⟩ := key
  exact C58_returns halvingLaw_real hv hc hne hpl

end Real
end Nmpc.FMPC
