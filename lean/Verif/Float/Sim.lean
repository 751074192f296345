import Verif.Float.Mpc
import Verif.Float.FmpcProps
import Verif.DDP.Sim
import Verif.FMPC.Sim
import Verif.CGMRES.Sim

/-!
# The simulation loops of the examples in any arithmetic

The interactive cart-pole simulations, the loop of the fast-MPC oscillator test and the loop of C/GMRES, with times accumulated by
repeated addition.
-/

set_option linter.unusedSectionVars false

namespace Nmpc

variable {α : Type} [Add α] [Sub α] [Mul α] [Div α] [Neg α] [Zero α] [One α] [FOps α] {u : ℝ}

open DDP (timeAt)

section Interactive
variable {n m : ℕ} {σ : Type} {C : Controller n m σ α} {plant : α → Vec n α → Vec m α → Vec n α} {simDt endT : α}
  {env : ℕ → List (Callback α)} {x0 : Vec n α} {c0 : σ} {I : σ → Prop} {U : Vec n α → Vec m α → Prop}

/-- Specification of a simulation: accumulated times; the states follow the plant under control input plus disturbance; the control
inputs satisfy `U`; a disturbance was requested in an earlier step `j`, and the time computed for its end has not passed. -/
structure SimTracks (plant : α → Vec n α → Vec m α → Vec n α) (simDt : α) (env : ℕ → List (Callback α)) (U : Vec n α → Vec m α → Prop)
    (x0 : Vec n α) (s : Sim n m σ α) : Prop where
  time : s.t = acc 0 simDt s.k
  len : s.log.length = s.k
  lines : ∃ (X : ℕ → Vec n α) (u d : ℕ → Vec m α), X 0 = x0 ∧ s.x = X s.k ∧
    ∀ k, k < s.k → s.log[k]? = some { t := acc 0 simDt k, x := X k, u := u k, d := d k } ∧
      X (k + 1) = plant (acc 0 simDt k) (X k) (u k + d k) ∧ U (X k) (u k) ∧
      ((d k = fun _ => 0) ∨ ∃ j f, j < k ∧ Callback.dist f ∈ env j ∧ (d k = fun _ => f) ∧
        ltb (acc 0 simDt (j + 1) + lit (1 / 2)) (acc 0 simDt k) = false)

/-- The disturbance in force. -/
def Waiting (simDt : α) (env : ℕ → List (Callback α)) (s : Sim n m σ α) : Prop :=
  (s.distU = fun _ => 0) ∨ ∃ j f, j < s.k ∧ Callback.dist f ∈ env j ∧ (s.distU = fun _ => f) ∧
    s.distT = acc 0 simDt (j + 1) + lit (1 / 2)

theorem spinOnce_tracks (hsolve : ∀ ref t x c, I c → ∃ c', C.solve ref t x c = .ok c' ∧ I c') {j : ℕ} :
    ∀ (cs : List (Callback α)) (s : Sim n m σ α), (∀ c ∈ cs, c ∈ env j) → s.k = j + 1 → s.t = acc 0 simDt s.k → I s.ctrl →
      Waiting simDt env s →
      ∃ s', spinOnce C cs s = .ok s' ∧ s'.k = s.k ∧ s'.t = s.t ∧ s'.x = s.x ∧ s'.log = s.log ∧ I s'.ctrl ∧ Waiting simDt env s'
  | [], s, _, _, _, hI, hp => ⟨s, rfl, rfl, rfl, rfl, rfl, hI, hp⟩
  | c :: cs, s, hc, hk, ht, hI, hp => by
    have hcs : ∀ c ∈ cs, c ∈ env j := fun e he => hc e (List.mem_cons_of_mem _ he)
    cases c with
    | mpc =>
      obtain ⟨c', h1, h2⟩ := hsolve (refPos s.target) s.t s.x s.ctrl hI
      obtain ⟨s', h3⟩ := spinOnce_tracks hsolve cs { s with ctrl := c' } hcs hk ht h2 hp
      exact ⟨s', by simpa [spinOnce, runCallback, h1, Res.map] using h3⟩
    | dist f =>
      obtain ⟨s', h3⟩ := spinOnce_tracks hsolve cs { s with distU := fun _ => f, distT := s.t + lit (1 / 2) } hcs hk ht hI
        (.inr ⟨j, f, by dsimp only; omega, hc _ List.mem_cons_self, rfl, by dsimp only; rw [ht, hk]⟩)
      exact ⟨s', by simpa [spinOnce, runCallback] using h3⟩
    | target p =>
      obtain ⟨s', h3⟩ := spinOnce_tracks hsolve cs { s with target := some p } hcs hk ht hI hp
      exact ⟨s', by simpa [spinOnce, runCallback] using h3⟩

/-- The simulations end normally as soon as the accumulated time reaches `end_t`, for every sequence of callbacks, if the controller
never fails. -/
theorem simLoop_tracks {M : ℕ} (hlt : ∀ k < M, ltb (acc 0 simDt k) endT = true) (hM : ltb (acc 0 simDt M) endT = false)
    (h0 : I c0) (hsolve : ∀ ref t x c, I c → ∃ c', C.solve ref t x c = .ok c' ∧ I c') (hin : ∀ c x, I c → U x (C.input c x)) :
    ∃ s, simLoop C plant simDt endT env x0 c0 = .ok s ∧ s.k = M ∧ SimTracks plant simDt env U x0 s ∧ I s.ctrl := by
  have key := loopR_clock (step := simRound C plant simDt endT env) (fun s => s.k) M
    (fun s => s.k ≤ M ∧ SimTracks plant simDt env U x0 s ∧ I s.ctrl ∧ Waiting simDt env s) ?_ ?_
    (s := { k := 0, t := 0, x := x0, distT := 0, distU := fun _ => 0, target := none, ctrl := c0, log := [] })
    ⟨Nat.zero_le _, ⟨rfl, rfl, fun _ => x0, fun _ _ => 0, fun _ _ => 0, rfl, rfl, fun k hk => absurd hk (Nat.not_lt_zero k)⟩, h0,
      .inl rfl⟩ (Nat.zero_le _)
  · obtain ⟨s, h1, h2, -, h3, h4, -⟩ := key
    exact ⟨s, h1, h2, h3, h4⟩
  · rintro s ⟨hle, hs, -, -⟩ hk
    unfold simRound
    rw [if_neg]
    rw [hs.time, show s.k = M by omega, hM]
    simp
  · rintro s ⟨-, hs, hI, hp⟩ hk
    have ht : ltb s.t endT = true := by rw [hs.time]; exact hlt _ hk
    obtain ⟨X, u, d, hX0, hXk, hl⟩ := hs.lines
    set d' : Vec m α := if ltb s.distT s.t then fun _ => 0 else s.distU with hd'
    have hpd : (d' = fun _ => 0) ∨ ∃ j f, j < s.k ∧ Callback.dist f ∈ env j ∧ (d' = fun _ => f) ∧
        s.distT = acc 0 simDt (j + 1) + lit (1 / 2) ∧
        ltb (acc 0 simDt (j + 1) + lit (1 / 2)) (acc 0 simDt s.k) = false := by
      rw [hd']
      split
      · exact .inl rfl
      · rename_i h
        rcases hp with hp | ⟨j, f, h1, h2, h3, h4⟩
        · exact .inl hp
        · refine .inr ⟨j, f, h1, h2, h3, h4, ?_⟩
          rw [← h4, ← hs.time]; simpa using h
    obtain ⟨s', h1, h2, h3, h4, h5, h6, h7⟩ := spinOnce_tracks (env := env) (simDt := simDt) hsolve (env s.k) (simOne C plant simDt s)
      (fun _ h => h) rfl (by simp only [simOne, hs.time, acc_succ]) hI (by
        rcases hpd with h | ⟨j, f, h1, h2, h3, h4, -⟩
        · exact .inl h
        · exact .inr ⟨j, f, Nat.lt_succ_of_lt h1, h2, h3, h4⟩)
    refine ⟨s', ?_, h2, (show s'.k = s.k + 1 from h2) ▸ hk, ⟨?_, ?_, ?_⟩, h6, h7⟩
    · unfold simRound
      rw [if_pos ht, h1]
    · rw [h3, h2]; simp only [simOne, hs.time, acc_succ]
    · rw [h5, h2]; simp [simOne, hs.len]
    · rw [h2, h4, h5]
      refine ⟨fun k => if k ≤ s.k then X k else (simOne C plant simDt s).x, fun k => if k = s.k then C.input s.ctrl s.x else u k,
        fun k => if k = s.k then d' else d k, by simp [hX0], by simp [simOne], ?_⟩
      intro k hk
      dsimp only
      rcases Nat.lt_succ_iff_lt_or_eq.1 (show k < s.k + 1 from hk) with h' | h'
      · obtain ⟨g1, g2, g3, g4⟩ := hl k h'
        rw [if_pos (by omega), if_neg (by omega), if_neg (by omega), if_pos (by omega)]
        refine ⟨?_, g2, g3, g4⟩
        rw [← g1]
        exact List.getElem?_append_left (by rw [hs.len]; exact h')
      · subst h'
        rw [if_pos le_rfl, if_pos rfl, if_pos rfl, if_neg (by omega), ← hXk]
        refine ⟨?_, by rw [← hs.time]; rfl, hin _ _ hI, ?_⟩
        · simp only [simOne, ← hd']
          rw [List.getElem?_append_right (by rw [hs.len]), hs.len, Nat.sub_self, hs.time]
          rfl
        · rcases hpd with h | ⟨j, f, h1, h2, h3, -, h5⟩
          · exact .inl h
          · exact .inr ⟨j, f, h1, h2, h3, h5⟩

end Interactive

/-! ## The controller of the DDP cart-pole example -/

namespace DDP

variable {n m : ℕ} {L : LLT α} {P : α → Callbacks n (fun _ : α => m)} {lo hi : Vec m α} {dt : α} {cfg : Config α}
  {scr : ℕ → Scratch n (fun _ => m) α} {N : ℕ}

/-- What is true of the controller between callbacks: the input is not outside the limits (NaN is not excluded). -/
structure CtrlSafe (lo hi : Vec m α) (N : ℕ) (c : SimCtrl n m α) : Prop where
  bounds : ∀ j, ltb (c.u j) (lo j) = false ∧ ltb (hi j) (c.u j) = false
  len : c.us.length = N
  dims : ∀ q ∈ c.us, q.1 = m

theorem timerCallback_safe (F : FloatLaws α u) (hN : 1 ≤ N) (hb : ∀ j, ltb (hi j) (lo j) = false) (ref t : α) (x : Vec n α)
    (c : SimCtrl n m α) (hs : Solves L (P ref) (some fun _ => (lo, hi)) dt cfg t (scr c.calls) N) (hc : CtrlSafe lo hi N c) :
    ∃ c', timerCallback L P (fun _ => (lo, hi)) dt cfg scr ref t x c = .ok c' ∧ CtrlSafe lo hi N c' := by
  have hd : DimsOk (fun _ => m) t dt c.us := fun i hi => hc.dims _ (List.getElem_mem hi)
  have hlen : (c.us.length : ℤ) = cfg.horizon := by rw [hs.1, hc.len]
  obtain ⟨b, hb'⟩ := hs.2 c.obj x c.us hc.len hd
  have htr := C11_trajectory (L := L) (P := P ref) (lim := some fun _ => (lo, hi)) (dt := dt) (o := c.obj) (t0 := t)
    (scratch := scr c.calls) (x0 := x) hlen hd
  unfold timerCallback
  generalize solve L (P ref) (some fun _ => (lo, hi)) dt cfg c.obj t (scr c.calls) x c.us = r at htr hb'
  obtain ⟨o', r⟩ := r
  dsimp only at htr hb' ⊢
  rw [hb', Res.bind_ok]
  have hlen' : o'.control.us.length = N := by rw [htr.lenU]; exact hc.len
  have hdim : ∀ q ∈ o'.control.us, q.1 = m := by
    intro q hq
    obtain ⟨i, hi, rfl⟩ := List.getElem_of_mem hq
    obtain ⟨_, u, _, hu, _⟩ := htr.step i (by rw [← htr.lenU]; exact hi)
    rw [List.getElem?_eq_getElem hi] at hu
    rw [Option.some.inj hu]
  have hpos : 0 < o'.control.us.length := by omega
  rw [List.getElem?_eq_getElem hpos]
  have h0 := hdim _ (List.getElem_mem hpos)
  generalize o'.control.us[0] = q at h0
  obtain ⟨k, v⟩ := q
  dsimp only at h0 ⊢
  subst h0
  rw [dif_pos rfl]
  refine ⟨_, rfl, fun j => ?_, hlen', hdim⟩
  have irr : ∀ a : α, ltb a a = false := by
    intro a
    rw [← Bool.not_eq_true, F.ltb_iff]
    cases F.val a <;> simp [FVal.Lt]
  dsimp only [fmin, fmax]
  by_cases h1 : ltb (v j) (lo j) = true
  · rw [if_pos h1, if_neg (by rw [hb j]; simp)]
    exact ⟨irr _, hb j⟩
  · rw [if_neg h1]
    by_cases h2 : ltb (hi j) (v j) = true
    · rw [if_pos h2]
      exact ⟨hb j, irr _⟩
    · rw [if_neg h2]
      exact ⟨by simpa using h1, by simpa using h2⟩

end DDP

/-! ## Fast MPC -/

namespace FMPC

section Shape
variable {n : ℕ} {md pd : α → ℕ} {L : GainSolver α} {P : Callbacks n md pd} {dt : α} {cfg : Config α} {o : Obj n α}
  {t0 : α} {sc : Scratch n (fun i => md (timeAt t0 dt i)) (fun i => pd (timeAt t0 dt i)) α} {x0 : Vec n α}
  {init : VarL n α}

/-- The lists of `variable()` after a call that returned. -/
theorem solve_lists {o' : Obj n α} {st : Status} (h : solve L P dt cfg o t0 sc x0 init = (o', .ok st)) :
    LengthsOk cfg.horizon o'.var ∧ DimsOk md pd t0 dt o'.var := by
  obtain ⟨v, w, hv, hck, hr, rfl⟩ := solve_ok h
  obtain ⟨hl, -, -⟩ := (checkVariable_iff (md := md) (pd := pd) (t0 := t0) (dt := dt) (horizon := cfg.horizon) v).2.2.1 hck
  have hN := hl.2.1
  refine ⟨?_, ?_, ?_, ?_⟩
  · refine ⟨?_, ?_, ?_, ?_, ?_⟩ <;> simp [Var.out] <;> omega
  all_goals
    intro i hi
    simp only [Var.out, List.getElem_map, List.getElem_range]

theorem firstGain_returns {o' : Obj n α} {st : Status} (h : solve L P dt cfg o t0 sc x0 init = (o', .ok st)) :
    ∃ K, firstGain L P dt cfg o t0 sc x0 init = .ok K := by
  obtain ⟨v, w, hv, hck, hr, rfl⟩ := solve_ok h
  unfold firstGain
  unfold startVar at hv
  rw [hv, Res.bind_ok]
  exact ⟨(w.coeff 0).K, by erw [hr]; rfl⟩

end Shape

variable {n m p : ℕ} {L : GainSolver α} {P : Callbacks n (fun _ : α => m) (fun _ => p)} {plant : α → Vec n α → Vec m α → Vec n α}
  {dt simDt : α} {cfg : Config α} {scr : ℕ → Scratch n (fun _ => m) (fun _ => p) α} {endT t0 : α} {o : Obj n α} {x0 : Vec n α}
  {init : VarL n α}

/-- A warm start of the right shape without slacks or multipliers `<= 0`. -/
structure WarmSafe (m p : ℕ) (N : ℤ) (v : VarL n α) : Prop where
  lengths : LengthsOk N v
  us : ∀ q ∈ v.us, q.1 = m
  ss : ∀ q ∈ v.ss, q.1 = p
  nus : ∀ q ∈ v.nus, q.1 = p
  safe : v.Safe

theorem WarmSafe.dims {N : ℤ} {v : VarL n α} (h : WarmSafe m p N v) (t dt : α) : DimsOk (fun _ => m) (fun _ => p) t dt v :=
  ⟨fun _ hi => h.us _ (List.getElem_mem hi), fun _ hi => h.ss _ (List.getElem_mem hi), fun _ hi => h.nus _ (List.getElem_mem hi)⟩

theorem warmSafe_of {N : ℤ} {v : VarL n α} {t dt : α} (hl : LengthsOk N v) (h : DimsOk (fun _ => m) (fun _ => p) t dt v)
    (hs : v.Safe) : WarmSafe m p N v := by
  refine ⟨hl, ?_, ?_, ?_, hs⟩
  all_goals
    intro q hq
    obtain ⟨i, hi, rfl⟩ := List.getElem_of_mem hq
  · exact h.1 i hi
  · exact h.2.1 i hi
  · exact h.2.2 i hi

theorem warmSafe_reset (N : ℕ) (x v lam : α) {s nu : α} (hs : leb s 0 = false) (hn : leb nu 0 = false) :
    WarmSafe m p N (resetVar n m p N x v lam s nu) := by
  refine ⟨?_, ?_, ?_, ?_, ?_, ?_⟩
  · simp [LengthsOk, resetVar]
  all_goals
    intro q hq
    simp only [resetVar] at hq
    obtain ⟨-, rfl⟩ := List.mem_replicate.1 hq
    first | rfl | (intro j; assumption)

/-- One call of `solve` from a safe warm start. -/
theorem solve_safe (F : FloatLaws α u) (hu : u ≤ 1 / 2048) (hm : 0 < cfg.maxIter)
    (hne : NoEmpty cfg.horizon.toNat n (fun _ => p) cfg) {v : VarL n α} (hw : WarmSafe m p cfg.horizon v) (o : Obj n α) (t : α)
    (sc : Scratch n (fun _ => m) (fun _ => p) α) (x : Vec n α) :
    ∃ o' st, solve L P dt cfg o t sc x v = (o', .ok st) ∧ WarmSafe m p cfg.horizon o'.var := by
  have hnn : NonNeg v := ⟨fun e he j => FloatLaws.not_neg_of_safe (hw.safe.1 e he j),
    fun e he j => FloatLaws.not_neg_of_safe (hw.safe.2 e he j)⟩
  obtain ⟨o', st, hq⟩ := C93_defined (L := L) (P := P) (dt := dt) (o := o) (t0 := t) (sc := sc) (x0 := x) F hu
    hw.lengths (hw.dims t dt).1 (.inr ⟨hw.dims t dt, hnn⟩) hne (.inl hm)
  have hsh := solve_lists hq
  exact ⟨o', st, hq, warmSafe_of hsh.1 hsh.2 (C93_positive F hu (.inr hw.safe) hq)⟩

/-- Specification of the closed loop: accumulated times, states and inputs of the rounds so far; the status is `Succeeded` exactly if
the last recorded KKT error is at most the threshold, and there is one. -/
structure LoopTracks (plant : α → Vec n α → Vec m α → Vec n α) (simDt t0 : α) (x0 : Vec n α) (kktThre : α) (s : Mpc n m α) : Prop where
  time : s.t = acc t0 simDt s.k
  len : s.log.length = s.k
  lines : ∃ (X : ℕ → Vec n α) (U : ℕ → Vec m α), X 0 = x0 ∧
    (∀ k, k < s.k → X (k + 1) = plant (acc t0 simDt k) (X k) (U k)) ∧
    (∀ k, k < s.k → ∃ e, s.log[k]? = some e ∧ e.t = acc t0 simDt k ∧ e.x = X k ∧ e.u = U k ∧
      (e.status = .succeeded ↔ leb e.last.kktError kktThre = true)) ∧ s.x = X s.k

theorem mpcStep_tracks (F : FloatLaws α u) (hu : u ≤ 1 / 2048) (hN : 0 < cfg.horizon) (hm : 0 < cfg.maxIter)
    (hne : NoEmpty cfg.horizon.toNat n (fun _ => p) cfg) {s : Mpc n m α}
    (h : LoopTracks plant simDt t0 x0 cfg.kktErrorThre s) (hw : WarmSafe m p cfg.horizon s.var) (ht : ltb s.t endT = true) :
    ∃ s', mpcStep L P plant dt simDt cfg scr endT s = .inl s' ∧ s'.k = s.k + 1 ∧
      LoopTracks plant simDt t0 x0 cfg.kktErrorThre s' ∧ WarmSafe m p cfg.horizon s'.var := by
  obtain ⟨o', st, hq, hw'⟩ := solve_safe (L := L) (P := P) (dt := dt) F hu hm hne hw s.obj s.t (scr s.k) s.x
  have h32 := C32_status hq
  have hlen : 0 < o'.trace.length := h32.2.2.2.2.1 hm
  obtain ⟨tr, htr⟩ : ∃ tr, o'.trace.getLast? = some tr :=
    ⟨_, List.getLast?_eq_some_getLast (List.ne_nil_of_length_pos hlen)⟩
  have hus : 0 < o'.var.us.length := by have := hw'.lengths.2.1; omega
  obtain ⟨v, hv⟩ : ∃ v : Vec m α, o'.var.us[0]? = some ⟨m, v⟩ := by
    rw [List.getElem?_eq_getElem hus]
    have := hw'.us _ (List.getElem_mem hus)
    generalize o'.var.us[0] = q at this
    obtain ⟨k, v⟩ := q
    dsimp only at this
    subst this
    exact ⟨v, rfl⟩
  obtain ⟨X, U, hX0, hX, hlog, hxk⟩ := h.lines
  have hlast : st = .succeeded ↔ leb tr.kktError cfg.kktErrorThre = true := by
    have hi := h32.2.2.2.2.2.2 (o'.trace.length - 1) (by omega)
    have he : o'.trace[o'.trace.length - 1] = tr := by
      rw [List.getLast?_eq_getElem?, List.getElem?_eq_getElem (by omega)] at htr
      exact Option.some.inj htr
    rw [he] at hi
    exact ⟨fun h => hi.2 ⟨h, by omega⟩, fun h => (hi.1 h).1⟩
  refine ⟨{ k := s.k + 1, t := s.t + simDt, x := plant s.t s.x v, var := o'.var, obj := o'
            log := s.log ++ [{ t := s.t, x := s.x, u := v, status := st, last := tr }] }, ?_, rfl,
          ⟨?_, by simp [h.len], ?_⟩, hw'⟩
  · unfold mpcStep
    rw [if_pos ht, hq]
    simp only [mpcNext, hv, htr, dite_true]
  · simp only [h.time, acc_succ]
  · refine ⟨fun k => if k ≤ s.k then X k else plant s.t s.x v, fun k => if k = s.k then v else U k, by simp [hX0], ?_, ?_, ?_⟩
    · intro k hk
      dsimp only at hk ⊢
      rcases Nat.lt_succ_iff_lt_or_eq.1 hk with h' | h'
      · rw [if_pos (by omega), if_pos (by omega), if_neg (by omega), hX k h']
      · subst h'
        rw [if_neg (by omega), if_pos le_rfl, if_pos rfl, hxk, h.time]
    · intro k hk
      dsimp only at hk ⊢
      rcases Nat.lt_succ_iff_lt_or_eq.1 hk with h' | h'
      · rw [List.getElem?_append_left (by rw [h.len]; exact h'), if_pos (by omega), if_neg (by omega)]
        exact hlog k h'
      · subst h'
        rw [List.getElem?_append_right (by rw [h.len]), h.len, if_pos le_rfl, if_pos rfl, ← hxk]
        exact ⟨_, by rw [Nat.sub_self]; rfl, h.time, rfl, rfl, hlast⟩
    · simp

/-- The loop does as many rounds as it takes until the accumulated time reaches `end_t`. -/
theorem mpcLoop_tracks (F : FloatLaws α u) (hu : u ≤ 1 / 2048) (hN : 0 < cfg.horizon) (hm : 0 < cfg.maxIter)
    (hne : NoEmpty cfg.horizon.toNat n (fun _ => p) cfg) {M : ℕ} (hlt : ∀ k < M, ltb (acc t0 simDt k) endT = true)
    (hM : ltb (acc t0 simDt M) endT = false) (hw : WarmSafe m p cfg.horizon init) :
    ∃ s, mpcLoop L P plant dt simDt cfg scr endT o t0 x0 init = .ok s ∧ s.k = M ∧
      LoopTracks plant simDt t0 x0 cfg.kktErrorThre s ∧ WarmSafe m p cfg.horizon s.var := by
  have key := loopR_clock (step := mpcStep L P plant dt simDt cfg scr endT) (fun s => s.k) M
    (fun s => s.k ≤ M ∧ LoopTracks plant simDt t0 x0 cfg.kktErrorThre s ∧ WarmSafe m p cfg.horizon s.var) ?_ ?_
    (s := { k := 0, t := t0, x := x0, var := init, obj := o, log := [] })
    ⟨Nat.zero_le _, ⟨rfl, rfl, ⟨fun _ => x0, fun _ _ => 0, rfl, by simp, by simp, rfl⟩⟩, hw⟩ (Nat.zero_le _)
  · obtain ⟨s, h1, h2, -, h3⟩ := key
    exact ⟨s, h1, h2, h3⟩
  · rintro s ⟨hle, hs, -⟩ hk
    unfold mpcStep
    rw [if_neg]
    rw [hs.time, show s.k = M by omega, hM]
    simp
  · rintro s ⟨-, hs, hw⟩ hk
    obtain ⟨s', h1, h2, h3, h4⟩ := mpcStep_tracks (L := L) (P := P) (dt := dt) (scr := scr) (endT := endT) F hu hN hm hne hs hw
      (by rw [hs.time]; exact hlt _ hk)
    exact ⟨s', h1, h2, h2 ▸ hk, h3, h4⟩

theorem timerCallback_safe (F : FloatLaws α u) (hu : u ≤ 1 / 2048) {P : α → Callbacks n (fun _ : α => m) (fun _ => p)}
    (hN : 0 < cfg.horizon) (hm : 0 < cfg.maxIter) (hne : NoEmpty cfg.horizon.toNat n (fun _ => p) cfg) (ref t : α) (x : Vec n α)
    (c : SimCtrl n m α) (hc : WarmSafe m p cfg.horizon c.var) :
    ∃ c', timerCallback L P dt cfg scr ref t x c = .ok c' ∧ WarmSafe m p cfg.horizon c'.var := by
  obtain ⟨o', st, hq, hw'⟩ := solve_safe (L := L) (P := P ref) (dt := dt) F hu hm hne hc c.obj t (scr c.calls) x
  obtain ⟨K, hK⟩ := firstGain_returns hq
  have hus : 0 < o'.var.us.length := by have := hw'.lengths.2.1; omega
  have hxs : 0 < o'.var.xs.length := by have := hw'.lengths.1; omega
  unfold timerCallback
  dsimp only
  rw [hq]
  erw [hK]
  simp only [Res.bind_ok]
  rw [List.getElem?_eq_getElem hus, List.getElem?_eq_getElem hxs]
  have h0 := hw'.us _ (List.getElem_mem hus)
  generalize o'.var.us[0] = q at h0
  obtain ⟨k, v⟩ := q
  dsimp only at h0 ⊢
  subst h0
  rw [dif_pos rfl]
  exact ⟨_, rfl, hw'⟩

end FMPC

end Nmpc
