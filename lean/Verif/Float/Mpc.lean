import Verif.Float.Time
import Verif.Float.DdpProps
import Verif.DDP.Mpc

/-!
# The receding-horizon loops of the DDP examples in any arithmetic
-/

set_option linter.unusedSectionVars false

namespace Nmpc.DDP

variable {α : Type} [Add α] [Sub α] [Mul α] [Div α] [Neg α] [Zero α] [One α] [FOps α] {u : ℝ}
  {n : ℕ} {md : α → ℕ} {L : LLT α} {P : Callbacks n md} {lim : Option ((t : α) → Vec (md t) α × Vec (md t) α)}
  {dt : α} {cfgs : ℕ → Config α} {scr : ℕ → (t : α) → Scratch n (fun i => md (timeAt t dt i)) α}
  {shift : α → List (Σ k : ℕ, Vec k α) → Res (List (Σ k : ℕ, Vec k α))} {endT t0 : α} {o : Obj n α} {x0 : Vec n α}
  {us : List (Σ k : ℕ, Vec k α)} {N : ℕ}

/-- Specification of the closed loop in any arithmetic: times, states and inputs of the rounds so far.  Round `k` is at the
accumulated time `acc t0 dt k`; the state moves by the state equation at this time (plus `0 * dt`, as `solve` computes it). -/
structure Tracks (P : Callbacks n md) (dt t0 : α) (x0 : Vec n α) (N : ℕ) (s : Mpc n α) : Prop where
  time : s.t = acc t0 dt s.k
  len : s.log.length = s.k
  lines : ∃ (X : ℕ → Vec n α) (U : (k : ℕ) → Vec (md (timeAt (acc t0 dt k) dt 0)) α), X 0 = x0 ∧
    (∀ k, k < s.k → X (k + 1) = P.stateEq (timeAt (acc t0 dt k) dt 0) (X k) (U k)) ∧
    (∀ k, k < s.k → s.log[k]? = some { t := acc t0 dt k, x := X k, u := ⟨_, U k⟩ }) ∧ s.x = X s.k
  warmLen : s.us.length = N
  warmDims : DimsOk md s.t dt s.us
  warm : 0 < s.k → ∀ i : ℕ, i + 1 < N → s.us[i]? = s.obj.control.us[i + 1]?

/-- What the loop needs of `solve` in round `k`. -/
def Solves (L : LLT α) (P : Callbacks n md) (lim : Option ((t : α) → Vec (md t) α × Vec (md t) α)) (dt : α) (cfg : Config α)
    (t : α) (scratch : Scratch n (fun i => md (timeAt t dt i)) α) (N : ℕ) : Prop :=
  cfg.horizon = N ∧ ∀ o x us, us.length = N → DimsOk md t dt us → ∃ b, (solve L P lim dt cfg o t scratch x us).2 = .ok b

/-- What the loop needs of the shifted warm start in round `k`. -/
def Shifts (md : α → ℕ) (dt : α) (N : ℕ) (shift : α → List (Σ k : ℕ, Vec k α) → Res (List (Σ k : ℕ, Vec k α))) (t t' : α) : Prop :=
  ∀ us, us.length = N → DimsOk md t dt us → ∃ us', shift t us = .ok us' ∧ us'.length = N ∧ DimsOk md t' dt us' ∧
    ∀ i : ℕ, i + 1 < N → us'[i]? = us[i + 1]?

theorem mpcStep_tracks (hN : 1 ≤ N) {s : Mpc n α} (h : Tracks P dt t0 x0 N s) (ht : ltb s.t endT = true)
    (hs : Solves L P lim dt (cfgs s.k) s.t (scr s.k s.t) N) (hsh : Shifts md dt N shift s.t (s.t + dt)) :
    ∃ s', mpcStep L P lim dt cfgs scr shift endT s = .inl s' ∧ s'.k = s.k + 1 ∧ Tracks P dt t0 x0 N s' := by
  have hlen : (s.us.length : ℤ) = (cfgs s.k).horizon := by rw [hs.1, h.warmLen]
  obtain ⟨b, hb⟩ := hs.2 s.obj s.x s.us h.warmLen h.warmDims
  have htr := C11_trajectory (L := L) (P := P) (lim := lim) (o := s.obj) (scratch := scr s.k s.t) (x0 := s.x) hlen h.warmDims
  generalize hq : solve L P lim dt (cfgs s.k) s.obj s.t (scr s.k s.t) s.x s.us = q at hb htr
  obtain ⟨o, r⟩ := q
  dsimp only at hb htr
  subst hb
  rw [h.warmLen] at htr
  obtain ⟨x, u, hx, hu, hx1, -⟩ := htr.step 0 (by omega)
  obtain rfl : x = s.x := Option.some.inj (hx.symm.trans htr.start)
  have hdims : DimsOk md s.t dt o.control.us := by
    intro i hi
    obtain ⟨_, u, _, hu, _⟩ := htr.step i (by rw [← htr.lenU]; exact hi)
    rw [List.getElem?_eq_getElem hi] at hu
    rw [Option.some.inj hu]
  obtain ⟨us', h1, h2, h3, h4⟩ := hsh o.control.us htr.lenU hdims
  have hstep : ∃ u, o.control.us[0]? = some ⟨md (timeAt (acc t0 dt s.k) dt 0), u⟩ ∧
      o.control.xs[1]? = some (P.stateEq (timeAt (acc t0 dt s.k) dt 0) s.x u) := by
    have h0 : s.t + lit ((0 : ℕ) : ℚ) * dt = timeAt (acc t0 dt s.k) dt 0 := by rw [h.time]; rfl
    exact h0 ▸ ⟨u, hu, hx1⟩
  clear hx1 hu
  clear u
  obtain ⟨u, hu, hx1⟩ := hstep
  obtain ⟨X, U, hX0, hX, hlog, hxk⟩ := h.lines
  refine ⟨{ k := s.k + 1, t := s.t + dt, x := P.stateEq (timeAt (acc t0 dt s.k) dt 0) s.x u, us := us', obj := o,
            log := s.log ++ [{ t := s.t, x := s.x, u := ⟨_, u⟩ }] }, ?_, rfl, ?_, by simp [h.len], ?_, h2, h3, fun _ => h4⟩
  · unfold mpcStep
    rw [if_pos ht, hq]
    simp only [hx, hu, h1, hx1]
  · simp only [h.time, acc_succ]
  · refine ⟨fun k => if k ≤ s.k then X k else P.stateEq (timeAt (acc t0 dt s.k) dt 0) s.x u,
      fun k => if hk : k = s.k then hk ▸ u else U k, by simp [hX0], ?_, ?_, ?_⟩
    · intro k hk
      dsimp only at hk ⊢
      rcases Nat.lt_succ_iff_lt_or_eq.1 hk with h' | h'
      · rw [if_pos (by omega), if_pos (by omega), dif_neg (by omega), hX k h']
      · subst h'
        rw [if_neg (by omega), if_pos le_rfl, dif_pos rfl, hxk]
    · intro k hk
      dsimp only at hk ⊢
      rcases Nat.lt_succ_iff_lt_or_eq.1 hk with h' | h'
      · rw [List.getElem?_append_left (by rw [h.len]; exact h'), hlog k h', if_pos (by omega), dif_neg (by omega)]
      · subst h'
        rw [List.getElem?_append_right (by rw [h.len]), h.len, if_pos le_rfl, dif_pos rfl, ← hxk, h.time]
        simp
    · simp

/-- The loop does as many rounds as it takes until the accumulated time reaches `end_t`. -/
theorem mpcLoop_tracks (hN : 1 ≤ N) {K : ℕ} (hlt : ∀ k < K, ltb (acc t0 dt k) endT = true) (hK : ltb (acc t0 dt K) endT = false)
    (hs : ∀ k < K, Solves L P lim dt (cfgs k) (acc t0 dt k) (scr k (acc t0 dt k)) N)
    (hsh : ∀ k < K, Shifts md dt N shift (acc t0 dt k) (acc t0 dt (k + 1)))
    (hlen : us.length = N) (hd : DimsOk md t0 dt us) :
    ∃ s, mpcLoop L P lim dt cfgs scr shift endT o t0 x0 us = .ok s ∧ s.k = K ∧ Tracks P dt t0 x0 N s := by
  have h0 : Tracks P dt t0 x0 N { k := 0, t := t0, x := x0, us := us, obj := o, log := [] } :=
    ⟨rfl, rfl, ⟨fun _ => x0, fun _ _ => 0, rfl, by simp, by simp, rfl⟩, hlen, hd, by simp⟩
  have key : ∀ j (s : Mpc n α), Tracks P dt t0 x0 N s → s.k + j = K →
      ∃ s', loopR (mpcStep L P lim dt cfgs scr shift endT) s = .ok s' ∧ s'.k = K ∧ Tracks P dt t0 x0 N s' := by
    intro j
    induction j with
    | zero =>
      intro s hs' hk
      refine ⟨s, ?_, hk, hs'⟩
      have : loopM (mpcStep L P lim dt cfgs scr shift endT) s = some (.ok s) := by
        apply loopM_inr
        unfold mpcStep
        rw [if_neg]
        rw [hs'.time, show s.k = K from hk, hK]
        simp
      unfold loopR
      rw [this]
    | succ j ih =>
      intro s hs' hk
      have hkK : s.k < K := by omega
      obtain ⟨s', h1, h2, h3⟩ := mpcStep_tracks (L := L) (lim := lim) (cfgs := cfgs) (scr := scr) (shift := shift) (endT := endT)
        hN hs' (by rw [hs'.time]; exact hlt _ hkK) (by rw [hs'.time]; exact hs _ hkK)
        (by rw [hs'.time, ← acc_succ]; exact hsh _ hkK)
      obtain ⟨s'', h4, h5⟩ := ih s' h3 (by omega)
      refine ⟨s'', ?_, h5⟩
      rw [← h4]
      unfold loopR
      rw [loopM_inl h1]
  exact key _ _ h0 (Nat.zero_add _)

/-- If the input dimension at the computed times depends only on the number of steps since the start, the shifted warm start
fits. -/
theorem shifts_dim (hN : 2 ≤ N) {t t' : α} (D : ℕ → ℕ) (h0 : ∀ i ≤ N, md (timeAt t dt i) = D i)
    (h1 : ∀ i < N, md (timeAt t' dt i) = D (i + 1)) : Shifts md dt N (fun t => shiftDim (md (t + lit (N : ℚ) * dt))) t t' := by
  intro us hlen hd
  match us, hlen with
  | [], h => simp at h; omega
  | a :: rest, h =>
    have hr : rest ≠ [] := by rintro rfl; simp at h; omega
    simp only [List.length_cons] at h
    refine ⟨rest ++ [if (rest.getLast hr).1 = md (t + lit (N : ℚ) * dt) then rest.getLast hr else
      ⟨md (t + lit (N : ℚ) * dt), fun _ => 0⟩], ?_, by simp [h], ?_, ?_⟩
    · simp [shiftDim, List.getLast?_eq_some_getLast hr]
    · intro i hi
      simp only [List.length_append, List.length_singleton] at hi
      have e1 := h1 i (by omega)
      rw [timeAt] at e1
      rw [e1]
      by_cases hi1 : i < rest.length
      · rw [List.getElem_append_left hi1]
        have := hd (i + 1) (by simpa using hi1)
        simp only [List.getElem_cons_succ] at this
        rw [this]
        exact h0 (i + 1) (by omega)
      · have : i = rest.length := by omega
        subst this
        rw [List.getElem_append_right (le_refl _)]
        have e2 := h0 N le_rfl
        rw [timeAt, ← h] at e2
        simp only [Nat.sub_self, List.getElem_singleton]
        rw [← h]
        split
        · rename_i h'; exact h'.trans e2
        · exact e2
    · intro i hi
      rw [List.getElem?_append_left (by omega), List.getElem?_cons_succ]

theorem shifts_repeat (hN : 2 ≤ N) (hc : ∀ t t', md t = md t') (t t' : α) : Shifts md dt N (fun _ => shiftRepeat) t t' := by
  intro us hlen hd
  obtain ⟨us', h1, h2⟩ := shifts_dim (md := md) (dt := dt) hN (t := t) (t' := t') (fun _ => md t) (fun _ _ => hc _ _)
    (fun _ _ => hc _ _) us hlen hd
  refine ⟨us', ?_, h2⟩
  match us, hlen with
  | [], h => simp at h; omega
  | a :: rest, h =>
    have hr : rest ≠ [] := by rintro rfl; simp at h; omega
    rw [← h1]
    have hl : (rest.getLast hr).1 = md (t + lit (N : ℚ) * dt) := by
      rw [List.getLast_eq_getElem]
      have := hd rest.length (by simp)
      rw [hc _ (t + lit (rest.length : ℚ) * dt), ← this, List.getElem_cons]
      simp only [List.length_eq_zero_iff, hr, dite_false]
    simp [shiftDim, shiftRepeat, List.getLast?_eq_some_getLast hr, hl]

theorem zeroInputs_dims (md : α → ℕ) (t0 dt : α) (N : ℕ) :
    (zeroInputs md t0 dt N).length = N ∧ DimsOk md t0 dt (zeroInputs md t0 dt N) := by
  refine ⟨by simp [zeroInputs], fun i hi => ?_⟩
  simp only [zeroInputs, List.getElem_map, List.getElem_range]

/-- If the plan made at the start and the plan of round `K` compute different input dimensions for the same step, some round up
to `K` throws `std::runtime_error`: the inputs are handed on from plan to plan. -/
theorem mpcLoop_mismatch {K i : ℕ} (hi : K + i < N) (hlt : ∀ k ≤ K, ltb (acc t0 dt k) endT = true)
    (hs : ∀ k ≤ K, Solves L P lim dt (cfgs k) (acc t0 dt k) (scr k (acc t0 dt k)) N)
    (hsh : ∀ t us, us.length = N → ∃ us', shift t us = .ok us' ∧ us'.length = N ∧ ∀ i : ℕ, i + 1 < N → us'[i]? = us[i + 1]?)
    (hne : md (timeAt t0 dt (K + i)) ≠ md (timeAt (acc t0 dt K) dt i)) :
    mpcLoop L P lim dt cfgs scr shift endT o t0 x0 (zeroInputs md t0 dt N) = .runtimeError := by
  have key : ∀ j (s : Mpc n α), s.k + j = K → s.t = acc t0 dt s.k → s.us.length = N →
      (∀ i (h : i < s.us.length), s.k + i < N → s.us[i].1 = md (timeAt t0 dt (s.k + i))) →
      loopR (mpcStep L P lim dt cfgs scr shift endT) s = .runtimeError := by
    have bad : ∀ (s : Mpc n α), s.k ≤ K → s.t = acc t0 dt s.k → s.us.length = N → ¬ DimsOk md s.t dt s.us →
        loopR (mpcStep L P lim dt cfgs scr shift endT) s = .runtimeError := by
      intro s hk ht hl hd
      have : loopM (mpcStep L P lim dt cfgs scr shift endT) s = some .runtimeError := by
        apply loopM_inr
        unfold mpcStep
        rw [if_pos (by rw [ht]; exact hlt _ hk), solve_invalid_dims _ hd]
        rw [hl, (hs _ hk).1]
      unfold loopR
      rw [this]
    intro j
    induction j with
    | zero =>
      intro s hk ht hl hd
      refine bad s (by omega) ht hl fun hdims => hne ?_
      obtain rfl : s.k = K := hk
      have h1 := hd i (by omega) hi
      have h2 := hdims i (by omega)
      rw [← h1, h2, ht]
      rfl
    | succ j ih =>
      intro s hk ht hl hd
      by_cases hdims : DimsOk md s.t dt s.us
      swap
      · exact bad s (by omega) ht hl hdims
      have hsk := hs s.k (by omega)
      rw [← ht] at hsk
      have hlen : (s.us.length : ℤ) = (cfgs s.k).horizon := by rw [hsk.1, hl]
      obtain ⟨b, hb⟩ := hsk.2 s.obj s.x s.us hl hdims
      have htr := C11_trajectory (L := L) (P := P) (lim := lim) (o := s.obj) (scratch := scr s.k s.t) (x0 := s.x) hlen hdims
      generalize hq : solve L P lim dt (cfgs s.k) s.obj s.t (scr s.k s.t) s.x s.us = q at hb htr
      obtain ⟨o, r⟩ := q
      dsimp only at hb htr
      subst hb
      rw [hl] at htr
      obtain ⟨x, u, hx, hu, hx1, -⟩ := htr.step 0 (by omega)
      obtain ⟨us', h1, h2, h3⟩ := hsh s.t o.control.us htr.lenU
      have hstep : mpcStep L P lim dt cfgs scr shift endT s = .inl
          { k := s.k + 1, t := s.t + dt, x := P.stateEq (s.t + lit ((0 : ℕ) : ℚ) * dt) x u, us := us', obj := o,
            log := s.log ++ [{ t := s.t, x := x, u := ⟨_, u⟩ }] } := by
        unfold mpcStep
        rw [if_pos (by rw [ht]; exact hlt _ (by omega)), hq]
        simp only [hx, hu, h1, hx1]
      unfold loopR
      rw [loopM_inl hstep]
      refine ih _ (by simp only; omega) (by simp only [ht, acc_succ]) h2 ?_
      intro i hi' hki
      dsimp only at hi' hki ⊢
      have h4 := h3 i (by omega)
      rw [List.getElem?_eq_getElem hi'] at h4
      obtain ⟨_, v, _, hv, _⟩ := htr.step (i + 1) (by omega)
      rw [hv] at h4
      rw [Option.some.inj h4]
      have h5 := hd (i + 1) (by omega) (by omega)
      have h6 := hdims (i + 1) (by omega)
      rw [show s.k + 1 + i = s.k + (i + 1) by omega, ← h5, h6]
  refine key K _ (Nat.zero_add _) rfl (zeroInputs_dims _ _ _ _).1 ?_
  intro i hi' hki
  dsimp only at hi' hki ⊢
  rw [Nat.zero_add]
  exact (zeroInputs_dims md t0 dt N).2 i hi'

theorem shiftDim_keeps (hN : 2 ≤ N) (d : ℕ) {us : List (Σ k : ℕ, Vec k α)} (h : us.length = N) :
    ∃ us', shiftDim d us = .ok us' ∧ us'.length = N ∧ ∀ i : ℕ, i + 1 < N → us'[i]? = us[i + 1]? := by
  match us, h with
  | [], h => simp at h; omega
  | a :: rest, h =>
    have hr : rest ≠ [] := by rintro rfl; simp at h; omega
    simp only [List.length_cons] at h
    refine ⟨rest ++ [if (rest.getLast hr).1 = d then rest.getLast hr else ⟨d, fun _ => 0⟩], ?_, by simp [h], ?_⟩
    · simp [shiftDim, List.getLast?_eq_some_getLast hr]
    · intro i hi
      rw [List.getElem?_append_left (by omega), List.getElem?_cons_succ]

/-- In rounded arithmetic `solve` returns whenever the warm start fits. -/
theorem solves_float {F : FloatLaws α u} (hu : u ≤ 1 / 2048) {cfg : Config α} (R : RegParams F cfg) {l d : ℝ}
    (hl : F.val cfg.initialLambda = .fin l) (hd0 : F.val cfg.initialDlambda = .fin d) (h2 : cfg.useSecond = false)
    (hlim : cfg.withConstraint = true → lim.isSome = true) (hN : cfg.horizon = N) (t : α)
    (scratch : Scratch n (fun i => md (timeAt t dt i)) α) : Solves L P lim dt cfg t scratch N := by
  refine ⟨hN, fun o x0 us hlen hd => ?_⟩
  have hN' : (us.length : ℤ) = cfg.horizon := by rw [hN, hlen]
  have hterm := C94_ddp_terminates (L := L) (P := P) (lim := lim) (dt := dt) (cfg := cfg) (o := o) (t0 := t)
    (scratch := scratch) (x0 := x0) (us := us) R hu hl hd0
  rw [solve_valid hN' hd] at hterm ⊢
  dsimp only at hterm ⊢
  rcases optLoop_kind (L := L) (N := us.length) (cfg := cfg) (S := stagesOf P lim t dt us.length) cfg.maxIter.toNat 1
      (start P lim dt cfg t scratch x0 us) with ⟨v, h⟩ | h | ⟨h, hw, hn⟩ | ⟨_, hu⟩
  · exact ⟨_, by rw [show (final L P lim dt cfg t scratch x0 us).2 = .ok v from h]; rfl⟩
  · exact absurd (show Res.map _ (final L P lim dt cfg t scratch x0 us).2 = .diverge by
      rw [show (final L P lim dt cfg t scratch x0 us).2 = .diverge from h]; rfl) hterm
  · have hs := hlim hw
    cases lim with
    | none => cases hs
    | some l => cases hn
  · rw [h2] at hu; cases hu

end Nmpc.DDP
