import Verif.Float.Limits
import Verif.DDP.Eval
import Verif.DDP.Witness

/-!
# The first input under rounding (C98)
-/

set_option linter.unusedSectionVars false

namespace Nmpc.DDP

variable {α : Type} [Add α] [Sub α] [Mul α] [Div α] [Neg α] [Zero α] [One α] [FOps α] {u : ℝ}

/-- The number `a` is NaN, or in `[lo, hi]` up to `e` times the larger of the magnitudes of the limits. -/
def WithinTol (F : FloatLaws α u) (lo hi : ℝ) (e : ℝ) (a : α) : Prop :=
  F.val a = .nan ∨ ∃ x, F.val a = .fin x ∧ lo - e * max |lo| |hi| ≤ x ∧ x ≤ hi + e * max |lo| |hi|

section Step
variable {n : ℕ} {m : ℕ → ℕ} {L : LLT α} {cfg : Config α} {N : ℕ} {S : Stages n m α} {F : FloatLaws α u}
  {lim : (i : ℕ) → Vec (m i) α × Vec (m i) α} {lo hi : Vec (m 0) ℝ}

/-- One iteration moves the first input by at most `11 u` times the magnitude of the limits beyond them. -/
theorem procOnce_within (A : ArithLaws F) (hu : u ≤ 1 / 2048) (hw : cfg.withConstraint = true) (hlim : S.lim = some lim) (hN : 0 < N)
    (hlo : ∀ r, F.val ((lim 0).1 r) = .fin (lo r)) (hhi : ∀ r, F.val ((lim 0).2 r) = .fin (hi r)) (hlh : ∀ r, lo r ≤ hi r)
    (hal : ∀ a ∈ cfg.alphaList, ∃ x, F.val a = .fin x ∧ 0 ≤ x ∧ x ≤ 1) (iter : ℕ) {s : Solver n m α} {e : ℝ} (he0 : 0 ≤ e)
    (he1 : e ≤ 1) (hs : ∀ r, WithinTol F (lo r) (hi r) e (s.ctrl.u 0 r)) (r : Fin (m 0)) :
    WithinTol F (lo r) (hi r) (e + 11 * u) ((procOnce L N cfg S iter s).1.ctrl.u 0 r) := by
  have hu0 := F.u_nonneg
  have keep : ∀ c : Ctrl n m α, c = s.ctrl → WithinTol F (lo r) (hi r) (e + 11 * u) (c.u 0 r) := by
    rintro c rfl
    rcases hs r with h | ⟨x, h1, h2, h3⟩
    · exact .inl h
    · have hM : 0 ≤ u * max |lo r| |hi r| := mul_nonneg hu0 (le_max_of_le_left (abs_nonneg _))
      exact .inr ⟨x, h1, by linarith, by linarith⟩
  have hf := bwSearch_frame (L := L) (N := N) (cfg := cfg) (S := S) (startIter N cfg S iter s)
  have := procOnce_out (L := L) (N := N) (cfg := cfg) (S := S) iter s
  generalize procOnce L N cfg S iter s = q at this
  cases this with
  | bwFail s2 hb => rw [hb] at hf; exact keep _ hf.1
  | err s2 e he hb => rw [hb] at hf; exact keep _ hf.1
  | small s2 hb hk hl => rw [hb] at hf; exact keep _ hf.1
  | full s2 hb hk =>
    rw [hb] at hf
    have hc : s2.ctrl = s.ctrl := hf.1
    have hq := finishStep_out (N := N) (cfg := cfg) s.trace
      { Trace.new iter with
        kRelNorm := kRelNorm N s2, alpha := (lineSearch N cfg S s2).alpha, actual := (lineSearch N cfg S s2).actual,
        expected := (lineSearch N cfg S s2).expected, ratio := (lineSearch N cfg S s2).ratio } (lineSearch N cfg S s2) s2
    generalize finishStep N cfg s.trace _ (lineSearch N cfg S s2) s2 = q at hq
    cases hq with
    | reject => exact keep _ hc
    | accept hsu v hv =>
      obtain ⟨a, ha, h⟩ := lineSearch_success hsu
      obtain ⟨xa, hxa, ha0, ha1⟩ := hal a ha
      show WithinTol F (lo r) (hi r) (e + 11 * u) ((lineSearch N cfg S s2).cand.u 0 r)
      rw [h]
      show WithinTol F (lo r) (hi r) (e + 11 * u) ((forwardPass N S s2.ctrl s2.gains a).u 0 r)
      obtain ⟨s', b, hfr, hbw, rfl⟩ := bwSearch_ok hb
      have hc' : s'.ctrl = s.ctrl := hfr.1
      obtain ⟨g, Q, hg⟩ := (bwLoop_gain hbw).2 0 hN
      rw [hc'] at hg
      obtain ⟨y, hy⟩ := stageGains_clamped hw hlim hg r
      rw [hc]
      show WithinTol F (lo r) (hi r) (e + 11 * u)
        (s.ctrl.u 0 r + a * b.gains.k 0 r + FOps.mulVec (b.gains.K 0) (s.ctrl.x 0 - s.ctrl.x 0) r)
      rw [hy]
      -- NaN propagates
      rcases hs r with hnan | ⟨x, hx, hx1, hx2⟩
      · left
        have h1 := F.add (s.ctrl.u 0 r) (a * fmax (fmin y ((lim 0).2 r - s.ctrl.u 0 r)) ((lim 0).1 r - s.ctrl.u 0 r))
        rw [hnan] at h1
        have h2 := h1.nan_left
        have h3 := F.add (s.ctrl.u 0 r + a * fmax (fmin y ((lim 0).2 r - s.ctrl.u 0 r)) ((lim 0).1 r - s.ctrl.u 0 r))
          (FOps.mulVec (b.gains.K 0) (s.ctrl.x 0 - s.ctrl.x 0) r)
        rw [h2] at h3
        exact h3.nan_left
      obtain ⟨l, hl, hl'⟩ := (F.sub_fin (hlo r) hx).bounds
      obtain ⟨h', hh, hh'⟩ := (F.sub_fin (hhi r) hx).bounds
      rcases clamp_float F (y := y) hl hh with hnan | ⟨k, hk, hk1, hk2⟩
      · left
        have h1 := F.mul a (fmax (fmin y ((lim 0).2 r - s.ctrl.u 0 r)) ((lim 0).1 r - s.ctrl.u 0 r))
        rw [hnan] at h1
        have h2 := F.add (s.ctrl.u 0 r) (a * fmax (fmin y ((lim 0).2 r - s.ctrl.u 0 r)) ((lim 0).1 r - s.ctrl.u 0 r))
        rw [h1.nan_right] at h2
        have h3 := F.add (s.ctrl.u 0 r + a * fmax (fmin y ((lim 0).2 r - s.ctrl.u 0 r)) ((lim 0).1 r - s.ctrl.u 0 r))
          (FOps.mulVec (b.gains.K 0) (s.ctrl.x 0 - s.ctrl.x 0) r)
        rw [h2.nan_right] at h3
        exact h3.nan_left
      obtain ⟨p, hp, hp'⟩ := (F.mul_fin hxa hk).bounds
      obtain ⟨q, hq, hq'⟩ := (F.add_fin hx hp).bounds
      rcases zero_dot (fun j => ⟨s.ctrl.x 0 j, rfl⟩) (A.mulVec (b.gains.K 0) (s.ctrl.x 0 - s.ctrl.x 0) r) with hnan | hz
      · left
        have h3 := F.add (s.ctrl.u 0 r + a * fmax (fmin y ((lim 0).2 r - s.ctrl.u 0 r)) ((lim 0).1 r - s.ctrl.u 0 r))
          (FOps.mulVec (b.gains.K 0) (s.ctrl.x 0 - s.ctrl.x 0) r)
        rw [hnan] at h3
        exact h3.nan_right
      obtain ⟨w, hw', hw''⟩ := (F.add_fin hq hz).bounds
      have hM : 0 ≤ max |lo r| |hi r| := le_max_of_le_left (abs_nonneg _)
      have := update_within hu0 hu (hlh r) (le_max_left _ _) (le_max_right _ _) (mul_nonneg he0 hM)
        (mul_le_of_le_one_left hM he1) ⟨hx1, hx2⟩ hl' hh' ⟨hk1, hk2⟩ ⟨ha0, ha1⟩ hp' hq' hw''
      exact .inr ⟨w, hw', by linarith [this.1], by linarith [this.2]⟩

end Step

variable {n : ℕ} {md : α → ℕ} {P : Callbacks n md} {L : LLT α} {cfg : Config α} {F : FloatLaws α u}
  {lim : (t : α) → Vec (md t) α × Vec (md t) α}
  {dt t0 : α} {o : Obj n α} {x0 : Vec n α} {us : List (Σ k : ℕ, Vec k α)}
  {scratch : Scratch n (fun i => md (timeAt t0 dt i)) α}

/-- **C98.**  In every arithmetic of the standard model (u ≤ 2^-11, 11 max_iter u ≤ 1): with input limits and step sizes in
[0, 1], if the first given input is within the numeric limits returned for the first sampling time, then every component of
the first input of `controlData()` after `solve`, however it ends, is NaN or within the limits up to `11 max_iter u` times
the larger of the magnitudes of the limits. -/
theorem C98_first_input (A : ArithLaws F) (hu : u ≤ 1 / 2048) (hK : 11 * (cfg.maxIter.toNat : ℝ) * u ≤ 1)
    (hw : cfg.withConstraint = true) (hal : ∀ a ∈ cfg.alphaList, ∃ x, F.val a = .fin x ∧ 0 ≤ x ∧ x ≤ 1)
    {lo hi : Vec (md (timeAt t0 dt 0)) ℝ}
    (hlo : ∀ r, F.val ((lim (timeAt t0 dt 0)).1 r) = .fin (lo r)) (hhi : ∀ r, F.val ((lim (timeAt t0 dt 0)).2 r) = .fin (hi r))
    (hN : (us.length : ℤ) = cfg.horizon) (hd : DimsOk md t0 dt us) {v : Vec (md (timeAt t0 dt 0)) α}
    (hv : us[0]? = some ⟨md (timeAt t0 dt 0), v⟩) (h0 : ∀ r, ∃ x, F.val (v r) = .fin x ∧ lo r ≤ x ∧ x ≤ hi r) :
    ∃ w : Vec (md (timeAt t0 dt 0)) α,
      (solve L P (some lim) dt cfg o t0 scratch x0 us).1.control.us[0]? = some ⟨md (timeAt t0 dt 0), w⟩ ∧
      ∀ r, WithinTol F (lo r) (hi r) (11 * (cfg.maxIter.toNat : ℝ) * u) (w r) := by
  have hu0 := F.u_nonneg
  have hlen : 0 < us.length := (List.getElem?_eq_some_iff.1 hv).1
  have hlh : ∀ r, lo r ≤ hi r := fun r => by obtain ⟨x, -, h1, h2⟩ := h0 r; exact h1.trans h2
  rw [solve_valid hN hd]
  refine ⟨(final L P (some lim) dt cfg t0 scratch x0 us).1.ctrl.u 0, by simp [Ctrl.out, List.getElem?_range hlen], ?_⟩
  set I : ℕ → Solver n (fun i => md (timeAt t0 dt i)) α → Prop := fun j s =>
    ∀ r, WithinTol F (lo r) (hi r) (11 * ((j : ℝ) - 1) * u) (s.ctrl.u 0 r) with hI
  have mono : ∀ {e e' : ℝ}, e ≤ e' → ∀ {a b : ℝ} {z : α}, WithinTol F a b e z → WithinTol F a b e' z := by
    intro e e' hee a b z hz
    rcases hz with h | ⟨x, h1, h2, h3⟩
    · exact .inl h
    · have hM : 0 ≤ max |a| |b| := le_max_of_le_left (abs_nonneg _)
      have := mul_le_mul_of_nonneg_right hee hM
      exact .inr ⟨x, h1, by linarith, by linarith⟩
  have hstart : I 1 (start P (some lim) dt cfg t0 scratch x0 us) := by
    intro r
    have : (start P (some lim) dt cfg t0 scratch x0 us).ctrl.u 0 = v := by
      show inputAt (m := fun i => md (timeAt t0 dt i)) us 0 = v
      simp [inputAt, hv]
    rw [this]
    obtain ⟨x, h1, h2, h3⟩ := h0 r
    exact .inr ⟨x, h1, by simpa using h2, by simpa using h3⟩
  have step : ∀ (j : ℕ) (s : Solver n (fun i => md (timeAt t0 dt i)) α), 1 ≤ j → j ≤ cfg.maxIter.toNat → I j s →
      I (j + 1) (procOnce L us.length cfg (stagesOf P (some lim) t0 dt us.length) j s).1 := by
    intro j s h1 h2 hs r
    have h3 : (1 : ℝ) ≤ j := by exact_mod_cast h1
    have h4 : (j : ℝ) ≤ cfg.maxIter.toNat := by exact_mod_cast h2
    have := procOnce_within (L := L) (S := stagesOf P (some lim) t0 dt us.length) (lim := fun i => lim (timeAt t0 dt i)) A hu hw rfl hlen hlo hhi hlh hal j
      (by apply mul_nonneg _ hu0; linarith) (le_trans (mul_le_mul_of_nonneg_right (by linarith) hu0) hK) hs r
    refine mono (le_of_eq ?_) this
    push_cast; ring
  refine optLoop_rule I (fun q => ∀ r, WithinTol F (lo r) (hi r) (11 * (cfg.maxIter.toNat : ℝ) * u) (q.1.ctrl.u 0 r)) _ _ hstart
    ?_ ?_ ?_
  · intro j s s' h1 h2 hs hp
    have := step j s h1 (by omega) hs
    rw [hp] at this; exact this
  · intro j s s' e h1 h2 hs hp _ r
    have := step j s h1 (by omega) hs r
    rw [hp] at this
    refine mono (mul_le_mul_of_nonneg_right ?_ hu0) this
    have : (j : ℝ) ≤ cfg.maxIter.toNat := by exact_mod_cast (show j ≤ cfg.maxIter.toNat by omega)
    push_cast; linarith
  · intro s hs r
    refine mono (mul_le_mul_of_nonneg_right ?_ hu0) (hs r)
    push_cast; linarith

/-! ### The tolerance is needed -/

/-- Cholesky for 1x1 matrices of doubles. -/
def divLLT53 : LLT (Bin 53) where
  ok M := decide (∀ i, XQ.lt (.fin 0) (M i i).x = true)
  solve M b i := b i / M i i

/-- `x' = x`, cost `(u - 1)²/2`. -/
def towardsOne : Callbacks 1 (fun _ : Bin 53 => 1) where
  stateEq _ x _ := x
  runningCost _ _ u := lit (1 / 2) * ((u 0 - 1) * (u 0 - 1))
  terminalCost _ _ := 0
  stateEqDeriv _ _ _ _ := { Fx := fun _ _ => 1, Fu := fun _ _ => 0 }
  stateEqDeriv2 _ _ _ _ := { Fx := fun _ _ => 1, Fu := fun _ _ => 0 }
  runningCostDeriv _ _ u _ :=
    { Lx := fun _ => 0, Lu := fun _ => u 0 - 1, Lxx := fun _ _ => 0, Luu := fun _ _ => 1, Lxu := fun _ _ => 0 }
  terminalCostDeriv _ _ _ := { Vx := fun _ => 0, Vxx := fun _ _ => 0 }

/-- The input is limited to [-1, 0.1]. -/
def tenthLim : (t : Bin 53) → Vec 1 (Bin 53) × Vec 1 (Bin 53) := fun _ => (fun _ => -1, fun _ => lit (1 / 10))

def zeroScratch53 : Scratch 1 (fun _ => 1) (Bin 53) where
  gains := { k := fun _ _ => 0, K := fun _ _ _ => 0 }
  derivs := {
    F := fun _ => { Fx := fun _ _ => 0, Fu := fun _ _ => 0 }
    L := fun _ => { Lx := fun _ => 0, Lu := fun _ => 0, Lxx := fun _ _ => 0, Luu := fun _ _ => 0, Lxu := fun _ _ => 0 }
    V := { Vx := fun _ => 0, Vxx := fun _ _ => 0 } }
  dV0 := 0
  dV1 := 0

/-- Default configuration with limits. -/
def limConfig53 : Config (Bin 53) := { defaultConfig [1] 500 1 with withConstraint := true }

/-- The call. -/
def limRun53 : Obj 1 (Bin 53) × Res Bool :=
  solve divLLT53 towardsOne (some tenthLim) 1 limConfig53 ⟨⟨[], [], []⟩, []⟩ 0 zeroScratch53 (fun _ => 0) [⟨1, fun _ => -1⟩]

/-- **C98** (the tolerance is needed) In doubles, from an initial input at the lower limit -1, `solve` leaves
the input 0.10000000000000009 in its control data although the upper limit is 0.1 (both are doubles). -/
theorem C98_limit_exceeded :
    limRun53.2 = .ok false ∧ limRun53.1.control.us.map (fun u => (List.ofFn u.2).map Bin.x) = [[.fin (225179981368525 / 2251799813685248)]] ∧
    (lit (1 / 10) : Bin 53).x = .fin (3602879701896397 / 36028797018963968) ∧
    (3602879701896397 / 36028797018963968 : ℚ) < 225179981368525 / 2251799813685248 := by
  have h : ∃ r, solveF 20 divLLT53 towardsOne (some tenthLim) 1 limConfig53 ⟨⟨[], [], []⟩, []⟩ 0 zeroScratch53 (fun _ => 0)
      [⟨1, fun _ => -1⟩] = some r ∧ r.2 = .ok false ∧
      r.1.control.us.map (fun u => (List.ofFn u.2).map Bin.x) = [[.fin (225179981368525 / 2251799813685248)]] := by
    have : (solveF 20 divLLT53 towardsOne (some tenthLim) 1 limConfig53 ⟨⟨[], [], []⟩, []⟩ 0 zeroScratch53 (fun _ => 0)
      [⟨1, fun _ => -1⟩]).map (fun r => (r.2, r.1.control.us.map fun u => (List.ofFn u.2).map Bin.x)) =
      some (.ok false, [[.fin (225179981368525 / 2251799813685248)]]) := by decide +kernel
    rw [Option.map_eq_some_iff] at this
    obtain ⟨r, h1, h2⟩ := this
    exact ⟨r, h1, (Prod.ext_iff.1 h2).1, (Prod.ext_iff.1 h2).2⟩
  obtain ⟨r, h1, h2, h3⟩ := h
  have e : limRun53 = r := solveF_eq h1
  rw [e]
  exact ⟨h2, h3, by decide +kernel, by norm_num⟩

/-- The same run meets the hypotheses of the theorem: the excess is below 11 * 500 * 2^-53. -/
example : ∃ w : Vec 1 (Bin 53), limRun53.1.control.us[0]? = some ⟨1, w⟩ ∧
    WithinTol (floatLaws_bin 53) (-1) ((rnd 53 (1 / 10) : ℚ) : ℝ) (11 * 500 * (1 / 2) ^ 53) (w 0) := by
  have hone : (floatLaws_bin 53).val (-1) = .fin (-1) := by
    rw [(floatLaws_bin 53).neg, (floatLaws_bin 53).one]; rfl
  obtain ⟨w, h1, h2⟩ := C98_first_input (L := divLLT53) (P := towardsOne) (o := ⟨⟨[], [], []⟩, []⟩) (x0 := fun _ => 0)
    (cfg := limConfig53) (t0 := 0) (dt := 1) (scratch := zeroScratch53)
    (lim := tenthLim) (lo := fun _ => -1) (hi := fun _ => ((rnd 53 (1 / 10) : ℚ) : ℝ)) (us := [⟨1, fun _ => -1⟩])
    (v := fun _ => -1) (arithLaws_bin 53) (by norm_num) (by rw [show limConfig53.maxIter.toNat = 500 from rfl]; norm_num) rfl
    (fun a ha => ⟨1, by
      simp only [limConfig53, defaultConfig, List.mem_singleton] at ha
      rw [ha]; exact (floatLaws_bin 53).one, zero_le_one, le_refl _⟩)
    (fun _ => hone) (fun _ => rfl) rfl
    (by intro i h; simp only [List.length_cons, List.length_nil] at h; obtain rfl : i = 0 := by omega
        rfl)
    rfl (fun _ => ⟨-1, hone, le_refl _, by
      have : (-1 : ℚ) ≤ rnd 53 (1 / 10) := by decide +kernel
      exact_mod_cast this⟩)
  refine ⟨w, h1, ?_⟩
  have := h2 0
  rw [show limConfig53.maxIter.toNat = 500 from rfl] at this
  exact_mod_cast this

end Nmpc.DDP
