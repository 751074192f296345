import Verif.FMPC.Lemmas

/-!
# FMPC properties that hold for every arithmetic

C32, C33, C34 (undefined behaviour), C39 (error for every bad content of the unset members).
-/

set_option linter.unusedSectionVars false

namespace Nmpc.FMPC

open DDP (FDeriv LDeriv VDeriv timeAt)

variable {α : Type} [Add α] [Sub α] [Mul α] [Div α] [Neg α] [Zero α] [One α] [FOps α]

section Solve
variable {n : ℕ} {md pd : α → ℕ} {L : GainSolver α} {P : Callbacks n md pd} {dt : α} {cfg : Config α} {o : Obj n α}
  {t0 : α} {sc : Scratch n (fun i => md (timeAt t0 dt i)) (fun i => pd (timeAt t0 dt i)) α} {x0 : Vec n α}
  {init : VarL n α}

/-! ## C32 -/

/-- The trace of a run: consecutive iteration numbers from 1, only the last KKT error may be within the threshold. -/
structure TraceOk (cfg : Config α) (tr : List (Trace α)) (st : Status) : Prop where
  iters : tr.map Trace.iter = (List.range tr.length).map (· + 1)
  last : ∀ i (h : i < tr.length), leb tr[i].kktError cfg.kktErrorThre = true ↔ (st = .succeeded ∧ i + 1 = tr.length)

theorem optLoop_trace {m p : ℕ → ℕ} {N : ℕ} {S : Stages n m p α} {w w' : Solver n m p α} {st : Status} {r : ℕ}
    (hw : w.trace = []) (h : optLoop L N cfg S x0 r 1 .uninitialized w = .ok (w', st)) :
    TraceOk cfg w'.trace st ∧ w'.trace.length ≤ r ∧ (st = .uninitialized ↔ r = 0) ∧ st ≠ .maxIterationReached ∧
      (st = .iterationContinued → w'.trace.length = r) ∧ (st ≠ .uninitialized → w'.trace ≠ []) := by
  refine optLoop_rule
    (I := fun it st w => TraceOk cfg w.trace .iterationContinued ∧ w.trace.length + 1 = it ∧
      (it = 1 → st = .uninitialized) ∧ (it ≠ 1 → st = .iterationContinued))
    (Q := fun st w => TraceOk cfg w.trace st ∧ w.trace.length ≤ r ∧ (st = .uninitialized ↔ r = 0) ∧
      st ≠ .maxIterationReached ∧ (st = .iterationContinued → w.trace.length = r) ∧
      (st ≠ .uninitialized → w.trace ≠ [])) ?_ ?_ ?_ h
  · rw [hw]
    exact ⟨⟨rfl, by intro i h; cases h⟩, rfl, fun _ => rfl, fun h => absurd rfl h⟩
  · intro it st w w' st' h1 h2 ⟨ht, hl, hu, hc⟩ hp
    obtain ⟨e, he, _, htr, _, hs, hnu, hnm⟩ := procOnce_frame hp
    have key : TraceOk cfg w'.trace st' := by
      refine ⟨?_, ?_⟩
      · rw [htr, List.map_append, ht.iters]
        simp [List.range_succ, ← hl]
      · intro i hi
        simp only [htr]
        rw [htr] at hi
        simp only [List.length_append, List.length_singleton] at hi ⊢
        by_cases hlt : i < w.trace.length
        · rw [List.getElem_append_left hlt, ht.last i hlt]
          constructor
          · rintro ⟨h, _⟩; cases h
          · rintro ⟨_, h⟩; omega
        · have : i = w.trace.length := by omega
          subst this
          rw [List.getElem_append_right (le_refl _)]
          simp [hs]
    have hlen : w'.trace.length = it := by rw [htr]; simp [← hl]
    split
    · rename_i hcont
      subst hcont
      exact ⟨key, by omega, by omega, fun _ => rfl⟩
    · rename_i hcont
      refine ⟨key, by omega, ⟨fun h => absurd h hnu, by omega⟩, hnm, fun h => absurd h hcont, ?_⟩
      intro _ h0
      rw [h0] at hlen
      simp at hlen
      omega
  · intro st w ⟨ht, hl, hu, hc⟩
    by_cases hr : r = 0
    · subst hr
      have := hu rfl
      subst this
      refine ⟨⟨ht.iters, ?_⟩, by omega, by simp, by simp, by simp, by simp⟩
      intro i hi
      omega
    · have := hc (by omega)
      subst this
      refine ⟨ht, by omega, by simp [hr], by simp, fun _ => by omega, ?_⟩
      intro _ h0
      rw [h0] at hl
      simp at hl
      omega

/-- **C32.**  `solve` never returns `IterationContinued`; it returns `Uninitialized` exactly when `max_iter <= 0`;
`MaxIterationReached` means that `max_iter > 0` iterations were executed; the trace has one entry per executed
iteration (numbered from 1), and `Succeeded` is returned exactly when the last recorded KKT error is within the
threshold (which stops the loop). -/
theorem C32_status {o' : Obj n α} {st : Status} (h : solve L P dt cfg o t0 sc x0 init = (o', .ok st)) :
    st ≠ .iterationContinued ∧ (st = .uninitialized ↔ cfg.maxIter ≤ 0) ∧
    (st = .maxIterationReached → 0 < cfg.maxIter ∧ (o'.trace.length : ℤ) = cfg.maxIter) ∧
    o'.trace.length ≤ cfg.maxIter.toNat ∧ (0 < cfg.maxIter → 0 < o'.trace.length) ∧
    o'.trace.map Trace.iter = (List.range o'.trace.length).map (· + 1) ∧
    ∀ i (hi : i < o'.trace.length),
      leb o'.trace[i].kktError cfg.kktErrorThre = true ↔ (st = .succeeded ∧ i + 1 = o'.trace.length) := by
  obtain ⟨v, w, hv, hc, hr, rfl⟩ := solve_ok h
  obtain ⟨st', ho, hst, _⟩ := runSolver_ok hr
  obtain ⟨ht, hl, hu, hm, hcont, hne⟩ := optLoop_trace rfl ho
  dsimp only
  by_cases hc' : st' = .iterationContinued
  · rw [if_pos hc'] at hst
    subst hst
    have h0 := hcont hc'
    have hpos : cfg.maxIter.toNat ≠ 0 := by
      intro h0'
      have := hu.2 h0'
      rw [hc'] at this; cases this
    refine ⟨by simp, ⟨by simp, by omega⟩, fun _ => ⟨by omega, by omega⟩, hl, fun _ => by omega, ht.iters, ?_⟩
    intro i hi
    rw [ht.last i hi, hc']
    simp
  · rw [if_neg hc'] at hst
    subst hst
    refine ⟨hc', ?_, fun h => absurd h hm, hl, ?_, ht.iters, fun i hi => ht.last i hi⟩
    · rw [hu]; omega
    · intro hp
      have : st ≠ .uninitialized := by rw [Ne, hu]; omega
      exact List.length_pos_of_ne_nil (hne this)

/-- A run of `k` iterations that all continue. -/
def ContinuedRun {m p : ℕ → ℕ} (L : GainSolver α) (N : ℕ) (cfg : Config α) (S : Stages n m p α) (x0 : Vec n α)
    (w0 : Solver n m p α) (k : ℕ) : Prop :=
  ∃ w : ℕ → Solver n m p α, w 0 = w0 ∧
    ∀ i < k, procOnce L N cfg S x0 (i + 1) (w i) = .ok (w (i + 1), .iterationContinued)

theorem optLoop_continued {m p : ℕ → ℕ} {N : ℕ} {S : Stages n m p α} (r iter : ℕ) (st0 : Status) (w : Solver n m p α)
    (hr : 0 < r) :
    (∃ w', optLoop L N cfg S x0 r iter st0 w = .ok (w', .iterationContinued)) ↔
      ∃ ws : ℕ → Solver n m p α, ws 0 = w ∧
        ∀ i < r, procOnce L N cfg S x0 (iter + i) (ws i) = .ok (ws (i + 1), .iterationContinued) := by
  induction r generalizing iter st0 w with
  | zero => omega
  | succ r ih =>
    constructor
    · rintro ⟨w', h⟩
      unfold optLoop at h
      generalize hp : procOnce L N cfg S x0 iter w = q at h
      cases q with
      | ok q =>
        obtain ⟨w1, st1⟩ := q
        dsimp only [Res.bind_ok] at h
        by_cases hc : st1 = .iterationContinued
        · rw [if_neg (by simpa using hc)] at h
          subst hc
          by_cases hr0 : r = 0
          · subst hr0
            refine ⟨fun i => if i = 0 then w else w1, rfl, ?_⟩
            intro i hi
            have : i = 0 := by omega
            subst this
            simpa using hp
          · obtain ⟨ws, hw0, hws⟩ := (ih (iter + 1) _ w1 (by omega)).1 ⟨w', h⟩
            refine ⟨fun i => match i with | 0 => w | i + 1 => ws i, rfl, ?_⟩
            intro i hi
            cases i with
            | zero => simp only [Nat.add_zero, hw0]; exact hp
            | succ i =>
              have := hws i (by omega)
              rw [show iter + 1 + i = iter + (i + 1) by omega] at this
              exact this
        · rw [if_pos hc] at h
          cases h
          exact absurd rfl hc
      | _ => cases h
    · rintro ⟨ws, rfl, hws⟩
      have h0 := hws 0 (by omega)
      unfold optLoop
      rw [Nat.add_zero] at h0
      rw [h0]
      dsimp only [Res.bind_ok]
      rw [if_neg (by simp)]
      by_cases hr0 : r = 0
      · subst hr0; exact ⟨ws 1, rfl⟩
      · refine (ih (iter + 1) _ (ws 1) (by omega)).2 ⟨fun i => ws (i + 1), rfl, ?_⟩
        intro i hi
        have := hws (i + 1) (by omega)
        rw [show iter + (i + 1) = iter + 1 + i by omega] at this
        exact this

/-- **C32**, second part: for valid arguments `MaxIterationReached` is returned exactly when `max_iter > 0` and all
`max_iter` iterations continued. -/
theorem C32_max_iteration {v : VarL n α} (hv : startVar P dt cfg t0 init = .ok v)
    (hc : checkVariable md pd t0 dt cfg.horizon v = .ok ()) :
    (solve L P dt cfg o t0 sc x0 init).2 = .ok .maxIterationReached ↔
      0 < cfg.maxIter ∧ ContinuedRun L v.us.length cfg (stagesOf P t0 dt v.us.length) x0
        (initSolver v (startEps cfg o) sc) cfg.maxIter.toNat := by
  constructor
  · intro h
    generalize hs : solve L P dt cfg o t0 sc x0 init = q at h
    obtain ⟨o', r⟩ := q
    dsimp only at h
    subst h
    have hst := C32_status hs
    obtain ⟨v', w, hv', hc', hr, _⟩ := solve_ok hs
    rw [hv] at hv'
    cases hv'
    obtain ⟨st', ho, hst', _⟩ := runSolver_ok hr
    have hpos := (hst.2.2.1 rfl).1
    refine ⟨hpos, ?_⟩
    have hco : st' = .iterationContinued := by
      by_contra hne
      rw [if_neg hne] at hst'
      have := (optLoop_trace rfl ho).2.2.2.1
      exact this hst'.symm
    subst hco
    obtain ⟨ws, h0, hws⟩ := (optLoop_continued _ 1 _ _ (by omega)).1 ⟨w, ho⟩
    exact ⟨ws, h0, fun i hi => by have := hws i hi; rwa [Nat.add_comm 1 i] at this⟩
  · rintro ⟨hpos, ws, h0, hws⟩
    obtain ⟨w', ho⟩ := (optLoop_continued (L := L) (cfg := cfg) cfg.maxIter.toNat 1 .uninitialized
      (initSolver v (startEps cfg o) sc) (by omega)).2 ⟨ws, h0, fun i hi => by
        rw [Nat.add_comm]; exact hws i hi⟩
    have hne := (optLoop_trace rfl ho).2.2.2.2.2 (by simp)
    have hr : runSolver L v.us.length cfg (stagesOf P t0 dt v.us.length) x0 (initSolver v (startEps cfg o) sc) =
        .ok (w', .maxIterationReached) := by
      unfold runSolver
      rw [ho]
      dsimp only [Res.bind_ok]
      rw [if_neg (by simp [hne]), if_pos rfl]
    have := solve_out (L := L) (P := P) (dt := dt) (cfg := cfg) (o := o) (t0 := t0) (sc := sc) (x0 := x0) (init := init)
    generalize solve L P dt cfg o t0 sc x0 init = r at this
    cases this with
    | ubInit h => rw [hv] at h; cases h
    | invalid v' hv' hc' => rw [hv] at hv'; cases hv'; rw [hc] at hc'; cases hc'
    | runtime v' hv' hc' => rw [hv] at hv'; cases hv'; rw [hc] at hc'; cases hc'
    | ok v' hv' hc' w st hr' =>
      rw [hv] at hv'; cases hv'
      rw [hr] at hr'
      cases hr'
      rfl
    | bad v' hv' hc' o' e he hr' =>
      rw [hv] at hv'; cases hv'
      rcases hr' with ⟨_, h⟩ | ⟨_, h⟩
      · rw [hr] at h; cases h
      · exact absurd hr (h _)

/-- **C32**, last part: with `print_level >= 3` and `max_iter <= 0` every valid call reads `back()` of an empty list. -/
theorem C32_print_level_ub {v : VarL n α} (hv : startVar P dt cfg t0 init = .ok v)
    (hc : checkVariable md pd t0 dt cfg.horizon v = .ok ()) (hp : 3 ≤ cfg.printLevel) (hm : cfg.maxIter ≤ 0) :
    (solve L P dt cfg o t0 sc x0 init).2 = .ub := by
  have hr : runSolver L v.us.length cfg (stagesOf P t0 dt v.us.length) x0 (initSolver v (startEps cfg o) sc) = .ub := by
    unfold runSolver
    rw [show cfg.maxIter.toNat = 0 by omega]
    unfold optLoop
    dsimp only [Res.bind_ok]
    rw [if_pos ⟨hp, rfl⟩]
  have := solve_out (L := L) (P := P) (dt := dt) (cfg := cfg) (o := o) (t0 := t0) (sc := sc) (x0 := x0) (init := init)
  generalize solve L P dt cfg o t0 sc x0 init = r at this
  cases this with
  | ubInit h => rfl
  | invalid v' hv' hc' => rw [hv] at hv'; cases hv'; rw [hc] at hc'; cases hc'
  | runtime v' hv' hc' => rw [hv] at hv'; cases hv'; rw [hc] at hc'; cases hc'
  | ok v' hv' hc' w st hr' =>
    rw [hv] at hv'; cases hv'
    rw [hr] at hr'; cases hr'
  | bad v' hv' hc' o' e he hr' =>
    rw [hv] at hv'; cases hv'
    rcases hr' with ⟨_, h⟩ | ⟨rfl, h⟩
    · rw [hr] at h; cases h
    · rfl

/-! ## C33 -/

/-- Every list has the length belonging to the horizon. -/
def LengthsOk (horizon : ℤ) (v : VarL n α) : Prop :=
  (v.xs.length : ℤ) = horizon + 1 ∧ (v.us.length : ℤ) = horizon ∧ (v.lams.length : ℤ) = horizon + 1 ∧
  (v.ss.length : ℤ) = horizon ∧ (v.nus.length : ℤ) = horizon

/-- Every element has the dimension that the problem prescribes at its time. -/
def DimsOk (md pd : α → ℕ) (t0 dt : α) (v : VarL n α) : Prop :=
  (∀ i (h : i < v.us.length), v.us[i].1 = md (timeAt t0 dt i)) ∧
  (∀ i (h : i < v.ss.length), v.ss[i].1 = pd (timeAt t0 dt i)) ∧
  (∀ i (h : i < v.nus.length), v.nus[i].1 = pd (timeAt t0 dt i))

/-- No slack and no multiplier is negative. -/
def NonNeg (v : VarL n α) : Prop :=
  (∀ e ∈ v.ss, ∀ j, ltb (e.2 j) 0 = false) ∧ (∀ e ∈ v.nus, ∀ j, ltb (e.2 j) 0 = false)

theorem anyNeg_iff (l : List (Σ k : ℕ, Vec k α)) : anyNeg l = false ↔ ∀ e ∈ l, ∀ j, ltb (e.2 j) 0 = false := by
  simp [anyNeg, List.any_eq_false]

theorem dims_all {l : List (Σ k : ℕ, Vec k α)} {md : α → ℕ} {N : ℕ} (hl : l.length = N) :
    (∀ i < N, (l.map Sigma.fst)[i]? = some (md (timeAt t0 dt i))) ↔
      ∀ i (h : i < l.length), l[i].1 = md (timeAt t0 dt i) := by
  subst hl
  constructor
  · intro h i hi
    have := h i hi
    rw [List.getElem?_map, List.getElem?_eq_getElem hi] at this
    simpa using this
  · intro h i hi
    rw [List.getElem?_map, List.getElem?_eq_getElem hi]
    simp [h i hi]

theorem checkVariable_iff {horizon : ℤ} (v : VarL n α) :
    (checkVariable md pd t0 dt horizon v = .invalidArgument ↔ ¬ LengthsOk horizon v) ∧
    (checkVariable md pd t0 dt horizon v = .runtimeError ↔
      LengthsOk horizon v ∧ ¬ (DimsOk md pd t0 dt v ∧ NonNeg v)) ∧
    (checkVariable md pd t0 dt horizon v = .ok () ↔
      LengthsOk horizon v ∧ DimsOk md pd t0 dt v ∧ NonNeg v) := by
  unfold checkVariable LengthsOk
  by_cases h1 : (v.xs.length : ℤ) = horizon + 1
  swap
  · rw [if_pos h1]; simp [h1]
  rw [if_neg (by simpa using h1)]
  by_cases h2 : (v.us.length : ℤ) = horizon
  swap
  · rw [if_pos h2]; simp [h2]
  rw [if_neg (by simpa using h2)]
  by_cases h3 : (v.lams.length : ℤ) = horizon + 1
  swap
  · rw [if_pos h3]; simp [h3]
  rw [if_neg (by simpa using h3)]
  by_cases h4 : (v.ss.length : ℤ) = horizon
  swap
  · rw [if_pos h4]; simp [h4]
  rw [if_neg (by simpa using h4)]
  by_cases h5 : (v.nus.length : ℤ) = horizon
  swap
  · rw [if_pos h5]; simp [h5]
  rw [if_neg (by simpa using h5)]
  have hss : v.ss.length = v.us.length := by omega
  have hnn : v.nus.length = v.us.length := by omega
  have hd : (List.range v.us.length).any (fun i => (v.us.map Sigma.fst)[i]? != some (md (timeAt t0 dt i))
      || (v.ss.map Sigma.fst)[i]? != some (pd (timeAt t0 dt i))
      || (v.nus.map Sigma.fst)[i]? != some (pd (timeAt t0 dt i))) = false ↔ DimsOk md pd t0 dt v := by
    unfold DimsOk
    rw [← dims_all (md := md) rfl, ← dims_all (md := pd) hss, ← dims_all (md := pd) hnn, List.any_eq_false]
    simp only [List.mem_range, Bool.not_eq_true, Bool.or_eq_false_iff, bne_eq_false_iff_eq]
    exact ⟨fun h => ⟨fun i hi => (h i hi).1.1, fun i hi => (h i hi).1.2, fun i hi => (h i hi).2⟩,
      fun h i hi => ⟨⟨h.1 i hi, h.2.1 i hi⟩, h.2.2 i hi⟩⟩
  have hn : (anyNeg v.ss || anyNeg v.nus) = false ↔ NonNeg v := by
    rw [Bool.or_eq_false_iff, anyNeg_iff, anyNeg_iff]; rfl
  by_cases h6 : DimsOk md pd t0 dt v
  · rw [if_neg (by rw [hd.2 h6]; simp)]
    by_cases h7 : NonNeg v
    · rw [if_neg (by rw [hn.2 h7]; simp)]
      simp [h1, h2, h3, h4, h5, h6, h7]
    · rw [if_pos (by rw [← Bool.not_eq_false, hn]; exact h7)]
      simp [h1, h2, h3, h4, h5, h6, h7]
  · rw [if_pos (by rw [← Bool.not_eq_false, hd]; exact h6)]
    simp [h1, h2, h3, h4, h5, h6]

/-- **C33.**  Without `init_complementary_variable`: `std::invalid_argument` exactly when some list has the wrong length,
otherwise `std::runtime_error` exactly when an element has the wrong dimension or is negative.  The trace of the previous
call is kept, `variable()` is the rejected argument. -/
theorem C33_validation (hi : cfg.initComplementary = false) :
    ((solve L P dt cfg o t0 sc x0 init).2 = .invalidArgument ↔ ¬ LengthsOk cfg.horizon init) ∧
    ((solve L P dt cfg o t0 sc x0 init).2 = .runtimeError ↔
      LengthsOk cfg.horizon init ∧ ¬ (DimsOk md pd t0 dt init ∧ NonNeg init)) ∧
    ((solve L P dt cfg o t0 sc x0 init).2 = .invalidArgument ∨ (solve L P dt cfg o t0 sc x0 init).2 = .runtimeError →
      (solve L P dt cfg o t0 sc x0 init).1 = { o with var := init }) := by
  have hsv : startVar P dt cfg t0 init = .ok init := by simp [startVar, hi]
  have hse : startEps cfg o = o.eps := by simp [startEps, hi]
  obtain ⟨c1, c2, c3⟩ := checkVariable_iff (md := md) (pd := pd) (t0 := t0) (dt := dt) (horizon := cfg.horizon) init
  have := solve_out (L := L) (P := P) (dt := dt) (cfg := cfg) (o := o) (t0 := t0) (sc := sc) (x0 := x0) (init := init)
  generalize solve L P dt cfg o t0 sc x0 init = r at this
  cases this with
  | ubInit h => rw [hsv] at h; cases h
  | invalid v' hv' hc' =>
    rw [hsv] at hv'; cases hv'
    have := c1.1 hc'
    simp [this, hse]
  | runtime v' hv' hc' =>
    rw [hsv] at hv'; cases hv'
    have := c2.1 hc'
    simp [this, hse]
  | ok v' hv' hc' w st hr' =>
    rw [hsv] at hv'; cases hv'
    have := c3.1 hc'
    simp [this]
  | bad v' hv' hc' o' e he hr' =>
    rw [hsv] at hv'; cases hv'
    have := c3.1 hc'
    rcases he with rfl | rfl <;> simp [this]

theorem initCompl_length {k : ℕ} {v v' : VarL n α} (h : initCompl P t0 dt k v = .ok v') :
    v'.xs = v.xs ∧ v'.us = v.us ∧ v'.lams = v.lams ∧ v'.ss.length = v.ss.length ∧ v'.nus.length = v.nus.length ∧
    k ≤ v.xs.length ∧ k ≤ v.us.length ∧ k ≤ v.ss.length ∧ k ≤ v.nus.length := by
  induction k generalizing v' with
  | zero => cases h; exact ⟨rfl, rfl, rfl, rfl, rfl, by omega, by omega, by omega, by omega⟩
  | succ k ih =>
    unfold initCompl at h
    rcases initCompl_cases (P := P) (t0 := t0) (dt := dt) k v with h1 | ⟨v1, h1⟩
    · rw [h1] at h; cases h
    · rw [h1] at h
      obtain ⟨e1, e2, e3, e4, e5, l1, l2, l3, l4⟩ := ih h1
      dsimp only [Res.bind_ok] at h
      split at h
      · rename_i x j u hx hu
        split at h
        · rename_i hl
          split at h
          · cases h
            dsimp only
            rw [List.length_set, List.length_set]
            have hx' := (List.getElem?_eq_some_iff.1 hx).1
            have hu' := (List.getElem?_eq_some_iff.1 hu).1
            rw [e1] at hx'; rw [e2] at hu'
            refine ⟨e1, e2, e3, e4, e5, by omega, by omega, by omega, by omega⟩
          · cases h
        · cases h
      · cases h

/-- **C33**, last part: with `init_complementary_variable` the lists are used before they are checked, so a list that is
too short is undefined behaviour instead of an exception. -/
theorem C33_init_ub (hi : cfg.initComplementary = true)
    (hshort : (init.xs.length : ℤ) < cfg.horizon ∨ (init.us.length : ℤ) < cfg.horizon ∨
      (init.ss.length : ℤ) < cfg.horizon ∨ (init.nus.length : ℤ) < cfg.horizon) :
    (solve L P dt cfg o t0 sc x0 init).2 = .ub := by
  have hsv : startVar P dt cfg t0 init = .ub := by
    unfold startVar
    rw [if_pos hi]
    rcases initCompl_cases (P := P) (t0 := t0) (dt := dt) cfg.horizon.toNat init with h | ⟨v', h⟩
    · exact h
    · obtain ⟨_, _, _, _, _, l1, l2, l3, l4⟩ := initCompl_length h
      omega
  have := solve_out (L := L) (P := P) (dt := dt) (cfg := cfg) (o := o) (t0 := t0) (sc := sc) (x0 := x0) (init := init)
  generalize solve L P dt cfg o t0 sc x0 init = r at this
  cases this with
  | ubInit h => rfl
  | invalid v' hv' => rw [hsv] at hv'; cases hv'
  | runtime v' hv' => rw [hsv] at hv'; cases hv'
  | ok v' hv' => rw [hsv] at hv'; cases hv'
  | bad v' hv' => rw [hsv] at hv'; cases hv'

/-! ## C34 -/

/-- **C34**, second part: with `update_barrier_eps`, at least one iteration and a step without inequality constraints,
the barrier update evaluates `minCoeff()` of an empty vector: every valid call is undefined behaviour. -/
theorem C34_no_inequality_ub {v : VarL n α} (hv : startVar P dt cfg t0 init = .ok v)
    (hc : checkVariable md pd t0 dt cfg.horizon v = .ok ()) (hu : cfg.updateBarrierEps = true)
    (hm : 0 < cfg.maxIter) {i : ℕ} (hi : (i : ℤ) < cfg.horizon) (hp : pd (timeAt t0 dt i) = 0) :
    (solve L P dt cfg o t0 sc x0 init).2 = .ub := by
  have hlen : (v.us.length : ℤ) = cfg.horizon := by
    have := (checkVariable_iff (md := md) (pd := pd) (t0 := t0) (dt := dt) (horizon := cfg.horizon) v).2.2.1 hc
    exact this.1.2.1
  have hr : runSolver L v.us.length cfg (stagesOf P t0 dt v.us.length) x0 (initSolver v (startEps cfg o) sc) = .ub := by
    unfold runSolver
    obtain ⟨k, hk⟩ : ∃ k, cfg.maxIter.toNat = k + 1 := ⟨cfg.maxIter.toNat - 1, by omega⟩
    rw [hk]
    unfold optLoop procOnce prepare
    rw [if_pos hu]
    unfold updateEps
    rw [if_pos (by rw [List.any_eq_true]; exact ⟨i, List.mem_range.2 (by omega), by simpa using hp⟩)]
    rfl
  have := solve_out (L := L) (P := P) (dt := dt) (cfg := cfg) (o := o) (t0 := t0) (sc := sc) (x0 := x0) (init := init)
  generalize solve L P dt cfg o t0 sc x0 init = r at this
  cases this with
  | ubInit h => rfl
  | invalid v' hv' hc' => rw [hv] at hv'; cases hv'; rw [hc] at hc'; cases hc'
  | runtime v' hv' hc' => rw [hv] at hv'; cases hv'; rw [hc] at hc'; cases hc'
  | ok v' hv' hc' w st hr' =>
    rw [hv] at hv'; cases hv'
    rw [hr] at hr'; cases hr'
  | bad v' hv' hc' o' e he hr' =>
    rw [hv] at hv'; cases hv'
    rcases hr' with ⟨_, h⟩ | ⟨rfl, h⟩
    · rw [hr] at h; cases h
    · rfl

/-! ## C39 -/

section Unset
variable {m p : ℕ → ℕ} {N : ℕ} {S : Stages n m p α}

/-- The terminal coefficient members that are computed contain NaN or infinity. -/
def TCoeff.computedNaN (c : TCoeff n α) : Bool :=
  vecBad c.V.Vx || matBad c.V.Vxx || vecBad c.Lxbar || vecBad c.s || matBad c.P

theorem TCoeff.containsNaN_eq (c : TCoeff n α) :
    c.containsNaN = (c.computedNaN || c.unset.any fun a => FOps.isNan a || FOps.isInf a) := rfl

theorem backwardPass_unset (w : Solver n m p α) : (backwardPass L N cfg S w).2.term.unset = w.term.unset := by
  unfold backwardPass
  dsimp only
  split
  · split <;> rfl
  · rfl

theorem procOnce_unset {iter : ℕ} {w w' : Solver n m p α} {st : Status}
    (h : procOnce L N cfg S x0 iter w = .ok (w', st)) : w'.term.unset = w.term.unset := by
  have := procOnce_out (L := L) (N := N) (cfg := cfg) (S := S) (x0 := x0) iter w
  rw [h] at this
  generalize hx : (Res.ok (w', st) : Res (Solver n m p α × Status)) = x at this
  cases this with
  | ubEps => cases hx
  | succeeded e he hk => cases hx; rfl
  | backward e he hk hb => cases hx; exact backwardPass_unset _
  | forward e he hk w2 hb hf =>
    cases hx
    have := backwardPass_unset (L := L) (N := N) (cfg := cfg) (S := S) (traced N x0 iter (prepared N S w e))
    rw [hb] at this
    exact this
  | update e he hk w2 hb w3 hf r hr =>
    have h1 := backwardPass_unset (L := L) (N := N) (cfg := cfg) (S := S) (traced N x0 iter (prepared N S w e))
    rw [hb] at h1
    have h2 : w3 = (forwardPass N cfg x0 w2).2 := by rw [hf]
    have := updateVariables_out (N := N) (cfg := cfg) (S := S) (x0 := x0) w3
    rw [hr] at this
    cases this with
    | reject hh => cases hx; rw [h2]; exact h1
    | step hh a mt hl => cases hx; dsimp only; rw [h2]; exact h1
    | ub => cases hx
    | diverge => cases hx

/-- The backward pass reports an error when an unset member happens to hold NaN or infinity. -/
theorem backwardPass_unset_bad {w : Solver n m p α} (hn : cfg.checkNan = true)
    (hb : (w.term.unset.any fun a => FOps.isNan a || FOps.isInf a) = true) :
    (backwardPass L N cfg S w).1 = false := by
  unfold backwardPass
  dsimp only
  split
  · rw [if_pos]
    rw [hn, Bool.true_and, TCoeff.containsNaN_eq]
    dsimp only
    rw [hb]
    simp
  · rfl

end Unset

/-- **C39**, negation in every arithmetic: if `check_nan` is set and one of the members of the terminal coefficient that
are never assigned happens to hold NaN or infinity, then no iteration can continue, whatever the problem: `solve` performs
no step and returns `ErrorInBackward` unless the initial variable already satisfies the KKT conditions. -/
theorem C39_unset_bad {o' : Obj n α} {st : Status} (hn : cfg.checkNan = true)
    (hb : (sc.term.unset.any fun a => FOps.isNan a || FOps.isInf a) = true)
    (h : solve L P dt cfg o t0 sc x0 init = (o', .ok st)) (hm : 0 < cfg.maxIter) :
    o'.trace.length = 1 ∧ (st = .errorInBackward ∨ st = .succeeded) ∧
    (∃ v, startVar P dt cfg t0 init = .ok v ∧
      o'.var = (v.toVar : Var n (fun i => md (timeAt t0 dt i)) (fun i => pd (timeAt t0 dt i)) α).out v.us.length) := by
  obtain ⟨v, w, hv, hc, hr, rfl⟩ := solve_ok h
  obtain ⟨st', ho, hst, _⟩ := runSolver_ok hr
  obtain ⟨k, hk⟩ : ∃ k, cfg.maxIter.toNat = k + 1 := ⟨cfg.maxIter.toNat - 1, by omega⟩
  rw [hk] at ho
  unfold optLoop at ho
  have := procOnce_out (L := L) (N := v.us.length) (cfg := cfg) (S := stagesOf P t0 dt v.us.length) (x0 := x0) 1
    (initSolver v (startEps cfg o) sc)
  generalize hq : procOnce L v.us.length cfg (stagesOf P t0 dt v.us.length) x0 1 (initSolver v (startEps cfg o) sc) = q
    at ho this
  cases q with
  | ok q =>
    obtain ⟨w1, st1⟩ := q
    have hbad : ∀ e, (backwardPass L v.us.length cfg (stagesOf P t0 dt v.us.length) (traced v.us.length x0 1
        (prepared v.us.length (stagesOf P t0 dt v.us.length) (initSolver v (startEps cfg o) sc) e))).1 = false :=
      fun e => backwardPass_unset_bad hn hb
    have hs1 : st1 = .errorInBackward ∨ st1 = .succeeded := by
      generalize hx : (Res.ok (w1, st1) : Res _) = x at this
      cases this with
      | ubEps => cases hx
      | succeeded e he hk => cases hx; exact .inr rfl
      | backward e he hk hb => cases hx; exact .inl rfl
      | forward e he hk w2 hb hf => have := hbad e; rw [hb] at this; cases this
      | update e he hk w2 hb w3 hf r hr => have := hbad e; rw [hb] at this; cases this
    have hne : st1 ≠ .iterationContinued := by rcases hs1 with rfl | rfl <;> simp
    dsimp only [Res.bind_ok] at ho
    rw [if_pos hne] at ho
    cases ho
    rw [if_neg hne] at hst
    subst hst
    obtain ⟨e, he, _, htr, hvar, _⟩ := procOnce_frame hq
    refine ⟨?_, hs1, v, hv, ?_⟩
    · dsimp only; rw [htr]; rfl
    · dsimp only; rw [hvar hne]; rfl
  | _ => cases ho

/-- **C39** (partial): if the unset members hold finite numbers and `break_if_llt_fails` is off, then an iteration that
ends with `ErrorInBackward` has a computed coefficient that contains NaN or infinity.  Missing for the full statement: the
condition on the unset members, which the code does not establish (`C39_unset_bad`). -/
theorem C39_partial {m p : ℕ → ℕ} {N : ℕ} {S : Stages n m p α} {iter : ℕ} {w w' : Solver n m p α}
    (hu : (w.term.unset.any fun a => FOps.isNan a || FOps.isInf a) = false) (hbr : cfg.breakIfLltFails = false)
    (h : procOnce L N cfg S x0 iter w = .ok (w', .errorInBackward)) :
    cfg.checkNan = true ∧ ((∃ i < N, (w'.coeff i).containsNaN = true) ∨ w'.term.computedNaN = true) := by
  have := procOnce_out (L := L) (N := N) (cfg := cfg) (S := S) (x0 := x0) iter w
  rw [h] at this
  generalize hx : (Res.ok (w', .errorInBackward) : Res (Solver n m p α × Status)) = x at this
  have hloop : ∀ (dt eps : α) (v : Var n m p α) (k : ℕ) (s : Vec n α) (P : Mat n n α) co,
      (bwLoop L cfg dt eps v k s P co).1 = true := by
    intro dt eps v k
    induction k with
    | zero => intros; rfl
    | succ k ih =>
      intro s P co
      unfold bwLoop
      split
      · rename_i hh
        unfold bwStage solveGains at hh
        rw [hbr] at hh
        revert hh
        dsimp only
        split
        · rename_i hs
          repeat' split at hs
          all_goals first | (rename_i hc; exact absurd hc Bool.false_ne_true) | cases hs
        · intro hh; cases hh
      · exact ih _ _ _
  cases this with
  | ubEps => cases hx
  | succeeded e he hk => cases hx
  | backward e he hk hb =>
    have hun := backwardPass_unset (L := L) (N := N) (cfg := cfg) (S := S) (traced N x0 iter (prepared N S w e))
    cases hx
    unfold backwardPass at hb hun ⊢
    dsimp only at hb hun ⊢
    rw [if_pos (hloop _ _ _ _ _ _ _)] at hb hun ⊢
    split at hb
    · rename_i hh
      rw [if_pos hh] at hun ⊢
      rw [Bool.and_eq_true, Bool.or_eq_true] at hh
      refine ⟨hh.1, ?_⟩
      rcases hh.2 with h1 | h1
      · left
        rw [List.any_eq_true] at h1
        obtain ⟨i, hi, h2⟩ := h1
        exact ⟨i, List.mem_range.1 hi, h2⟩
      · right
        rw [TCoeff.containsNaN_eq] at h1
        have : ((traced N x0 iter (prepared N S w e)).term.unset.any fun a => FOps.isNan a || FOps.isInf a) = false := hu
        dsimp only at h1 ⊢
        rw [this, Bool.or_false] at h1
        exact h1
    · cases hb
  | forward e he hk w2 hb hf => cases hx
  | update e he hk w2 hb w3 hf r hr =>
    have := updateVariables_out (N := N) (cfg := cfg) (S := S) (x0 := x0) w3
    rw [hr] at this
    cases this <;> cases hx

/-! ## C38 -/

/-- **C38**, negation in every arithmetic: the replacement of negative slacks and multipliers does nothing.
`std::numeric_limits<double>::lowest()` is the most negative double, so no element except minus infinity is below it. -/
theorem C38_no_repair {k : ℕ} (v : Vec k α) (h : ∀ j, ltb (v j) FOps.lowest = false) : repair v = v := by
  unfold repair
  split
  · funext j
    simp [fmax, h j]
  · rfl

end Solve
end Nmpc.FMPC
