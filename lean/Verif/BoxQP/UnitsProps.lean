import Verif.BoxQP.Units
import Verif.BoxQP.Props

/-!
# C137: `BoxQP::solve` does not depend on the units, order and orientation of the variables
-/

namespace Nmpc.BoxQP

open Matrix

variable {n : ℕ} {L : LLT ℝ} {c c' : Config ℝ} {a : Args n ℝ} {o o' : Obj n ℝ} {T : Units n}

/-! ## Line search -/

/-- Variables of the line search in the two units. -/
structure Units.SimLS (T : Units n) (s s' : LS n ℝ) : Prop where
  step : s'.step = s.step
  stepNum : s'.stepNum = s.stepNum
  xc : s'.xc = T.pt s.xc
  objc : s'.objc = T.c * s.objc
  retval : s'.retval = s.retval

theorem Units.simLS_init (h : ∀ i, a.lower i ≤ a.upper i) (x dir : Vec n ℝ) (rv : ℤ) :
    T.SimLS (lsInit a x dir rv) (lsInit (T.args a) (T.pt x) (T.pt dir) rv) := by
  refine ⟨rfl, rfl, ?_, ?_, rfl⟩
  · exact T.candidate h x dir 1
  · show BoxQP.objective (T.args a).H (T.args a).g (BoxQP.candidate (T.args a) (T.pt x) (T.pt dir) 1) = _
    rw [T.candidate h, T.objective]
    rfl

theorem Units.simLS (hcf : T.Conf c c') (h : ∀ i, a.lower i ≤ a.upper i) (x dir : Vec n ℝ) (oldObj sdg : ℝ) (rv : ℤ) :
    (lineSearch c a x dir oldObj sdg rv = none ∧ lineSearch c' (T.args a) (T.pt x) (T.pt dir) (T.c * oldObj) (T.c * sdg) rv = none) ∨
      ∃ r r', lineSearch c a x dir oldObj sdg rv = some r ∧
        lineSearch c' (T.args a) (T.pt x) (T.pt dir) (T.c * oldObj) (T.c * sdg) rv = some r' ∧ T.SimLS r r' := by
  refine loopM_rel (T.SimLS) (T.SimLS) (fun s s' hs => ?_) (T.simLS_init h x dir rv)
  have hq : (s'.objc - T.c * oldObj) / (s'.step * (T.c * sdg)) = (s.objc - oldObj) / (s.step * sdg) := by
    rw [hs.objc, hs.step, ← mul_sub, show s.step * (T.c * sdg) = T.c * (s.step * sdg) by ring, mul_div_mul_left _ _ T.hc.ne']
  unfold lsStep
  rw [hq, hcf.armijo, hs.step, hcf.factor, hcf.minStep]
  dsimp only
  rw [T.candidate h, T.objective]
  split
  · split
    · exact .inr ⟨_, _, rfl, rfl, ⟨rfl, by simp [hs.stepNum], rfl, rfl, rfl⟩⟩
    · exact .inl ⟨_, _, rfl, rfl, ⟨rfl, by simp [hs.stepNum], rfl, rfl, hs.retval⟩⟩
  · exact .inr ⟨_, _, rfl, rfl, hs⟩

/-! ## Main loop -/

/-- Variables of the main loop in the two units. -/
structure Units.Sim (T : Units n) (s s' : State n ℝ) : Prop where
  x : s'.x = T.pt s.x
  obj : s'.obj = T.c * s.obj
  oldObj : s'.oldObj = T.c * s.oldObj
  clamped : ∀ i, s'.clamped i = s.clamped (T.e i)
  iter : s'.iter = s.iter
  factNum : s'.factNum = s.factNum
  free : s'.free = T.list s.free
  retval : s'.retval = s.retval
  trace : s'.trace = s.trace.map T.trace

/-- After the first iteration the stored factorisation is that of the free part for the stored flags. -/
structure Stored (a : Args n ℝ) (s : State n ℝ) : Prop where
  pos : 1 ≤ s.iter
  llt : 1 < s.iter → s.llt = some ⟨_, subMat a.H (idxs fun i => !s.clamped i) (idxs fun i => !s.clamped i)⟩
  posOn : 1 < s.iter → PosOn a.H fun i => !s.clamped i

theorem ok_iff_posOn (hL : L.Exact) (hH : a.H.IsSymm) (f : Fin n → Bool) : L.ok (subMat a.H (idxs f) (idxs f)) = true ↔ PosOn a.H f := by
  rw [← posOn_iff hH]
  exact hL.ok_iff _ (subMat_symm hH _)

theorem Stored.llt_at {s : State n ℝ} (hs : Stored a s) {fl : Fin n → Bool} {rf : Bool} (hH : a.H.IsSymm) (hL : L.Exact)
    (hrf : rf = (decide (s.iter = 1) || (List.finRange n).any fun i => fl i != s.clamped i))
    (hok : ¬ (rf && !L.ok (subMat a.H (idxs fun i => !fl i) (idxs fun i => !fl i))) = true) :
    (if rf then some ⟨_, subMat a.H (idxs fun i => !fl i) (idxs fun i => !fl i)⟩ else s.llt : Option (Σ k : ℕ, Mat k k ℝ)) =
        some ⟨_, subMat a.H (idxs fun i => !fl i) (idxs fun i => !fl i)⟩ ∧ PosOn a.H fun i => !fl i := by
  cases hr : rf with
  | true =>
    rw [hr] at hok
    refine ⟨rfl, (ok_iff_posOn hL hH _).1 ?_⟩
    simpa using hok
  | false =>
    rw [hr] at hrf
    have h1 := (Bool.or_eq_false_iff.1 hrf.symm)
    have h2 : 1 < s.iter := by
      have := of_decide_eq_false h1.1
      have := hs.pos
      omega
    have h3 : fl = s.clamped := by
      funext i
      have := List.any_eq_false.1 h1.2 i (List.mem_finRange i)
      simpa using this
    subst h3
    exact ⟨hs.llt h2, hs.posOn h2⟩

theorem Units.new (k : ℕ) : T.trace (Trace.new n k) = Trace.new n k := by
  unfold Units.trace Trace.new Units.pt
  simp

/-- What one iteration does in the two units. -/
def Units.Both (T : Units n) (a : Args n ℝ) (u u' : State n ℝ ⊕ Res (State n ℝ)) : Prop :=
  (∃ q q', u = .inl q ∧ u' = .inl q' ∧ T.Sim q q' ∧ Stored a q ∧ Stored (T.args a) q') ∨
    ∃ r r', u = .inr r ∧ u' = .inr r' ∧ ((r = .diverge ∧ r' = .diverge) ∨ ∃ q q', r = .ok q ∧ r' = .ok q' ∧ T.Sim q q')

theorem Units.step (hL : L.Exact) (hcf : T.Conf c c') (hb : ∀ i, a.lower i ≤ a.upper i) (hH : a.H.IsSymm) {s s' : State n ℝ}
    (hs : T.Sim s s') (h1 : Stored a s) (h2 : Stored (T.args a) s') :
    T.Both a (mainStep L c a s) (mainStep L c' (T.args a) s') := by
  have hH' := T.symm hH
  have htr : s'.trace ++ [Trace.new n s'.iter] = (s.trace ++ [Trace.new n s.iter]).map T.trace := by
    rw [List.map_append, List.map_singleton, T.new, hs.trace, hs.iter]
  have hrel : (decide (1 < s'.iter) && ltb (s'.oldObj - s'.obj) (c'.relImproveThre * FOps.abs s'.oldObj)) =
      (decide (1 < s.iter) && ltb (s.oldObj - s.obj) (c.relImproveThre * FOps.abs s.oldObj)) := by
    rw [hs.iter, hs.oldObj, hs.obj, hcf.rel]
    congr 1
    rw [Bool.eq_iff_iff, ltb_real, ltb_real, abs_real, abs_real, abs_mul, abs_of_pos T.hc, ← mul_sub,
      show c.relImproveThre * (T.c * |s.oldObj|) = T.c * (c.relImproveThre * |s.oldObj|) by ring]
    exact mul_lt_mul_iff_right₀ T.hc
  have hgr : BoxQP.gradient (T.args a) s'.x = T.gr (BoxQP.gradient a s.x) := by rw [hs.x, T.gradient]
  have hfl : clampedFlags (T.args a) s'.x (T.gr (BoxQP.gradient a s.x)) = fun i => clampedFlags a s.x (BoxQP.gradient a s.x) (T.e i) := by
    funext i
    rw [hs.x]
    exact T.flags _ _ i
  unfold mainStep
  dsimp only
  rw [hrel, hgr, hfl, htr]
  generalize hfl0 : clampedFlags a s.x (BoxQP.gradient a s.x) = fl
  have hall : (List.finRange n).all (fun i => fl (T.e i)) = (List.finRange n).all fl := by
    rw [Bool.eq_iff_iff, List.all_eq_true, List.all_eq_true]
    exact ⟨fun h i _ => by simpa using h (T.e.symm i) (List.mem_finRange _), fun h i _ => h _ (List.mem_finRange _)⟩
  have hrf : (decide (s'.iter = 1) || (List.finRange n).any fun i => fl (T.e i) != s'.clamped i) =
      (decide (s.iter = 1) || (List.finRange n).any fun i => fl i != s.clamped i) := by
    rw [hs.iter]
    congr 1
    rw [Bool.eq_iff_iff, List.any_eq_true, List.any_eq_true]
    constructor
    · rintro ⟨i, -, h⟩
      exact ⟨T.e i, List.mem_finRange _, by rwa [hs.clamped] at h⟩
    · rintro ⟨i, -, h⟩
      exact ⟨T.e.symm i, List.mem_finRange _, by rw [hs.clamped]; simpa using h⟩
  have hlist : T.list (idxs fun i => !fl i) = idxs fun i => !fl (T.e i) := T.list_idxs _
  have hokeq : L.ok (subMat (T.args a).H (idxs fun i => !fl (T.e i)) (idxs fun i => !fl (T.e i))) =
      L.ok (subMat a.H (idxs fun i => !fl i) (idxs fun i => !fl i)) := by
    rw [Bool.eq_iff_iff, ok_iff_posOn hL hH, ok_iff_posOn hL hH']
    exact T.posOn (f := fun i => !fl i)
  rw [hall, hrf, hokeq]
  generalize hrf0 : (decide (s.iter = 1) || (List.finRange n).any fun i => fl i != s.clamped i) = rf
  rw [hrf0] at hrf
  split
  · exact .inr ⟨_, _, rfl, rfl, .inr ⟨_, _, rfl, rfl, ⟨hs.x, hs.obj, hs.oldObj, hs.clamped, hs.iter, hs.factNum, hs.free, rfl, rfl⟩⟩⟩
  split
  · exact .inr ⟨_, _, rfl, rfl, .inr ⟨_, _, rfl, rfl, ⟨hs.x, hs.obj, hs.obj, fun i => rfl, hs.iter, hs.factNum, hlist.symm, rfl, rfl⟩⟩⟩
  split
  · exact .inr ⟨_, _, rfl, rfl, .inr ⟨_, _, rfl, rfl, ⟨hs.x, hs.obj, hs.obj, fun i => rfl, hs.iter, hs.factNum, hlist.symm, rfl, rfl⟩⟩⟩
  rename_i hok
  have hok' : ¬ (rf && !L.ok (subMat (T.args a).H (idxs fun i => !fl (T.e i)) (idxs fun i => !fl (T.e i)))) = true := by rwa [hokeq]
  obtain ⟨hl, hp⟩ := h1.llt_at hH hL hrf0.symm hok
  obtain ⟨hl', hp'⟩ := h2.llt_at (fl := fun i => fl (T.e i)) hH' hL hrf.symm hok'
  rw [hl, hl']
  have hfn : (if rf = true then s'.factNum + 1 else s'.factNum) = if rf = true then s.factNum + 1 else s.factNum := by rw [hs.factNum]
  rw [hfn, T.gradNorm (f := fun i => !fl i) hcf]
  generalize (if rf = true then s.factNum + 1 else s.factNum) = fn
  split
  · exact .inr ⟨_, _, rfl, rfl, .inr ⟨_, _, rfl, rfl, ⟨hs.x, hs.obj, hs.obj, fun i => rfl, hs.iter, rfl, hlist.symm, rfl, rfl⟩⟩⟩
  have hex : ∀ (a : Args n ℝ) (x : Vec n ℝ) (fl : Fin n → Bool), ∃ d, searchDirFree L a x
      (some ⟨_, subMat a.H (idxs fun i => !fl i) (idxs fun i => !fl i)⟩) (idxs fun i => !fl i) (idxs fl) = some d := fun a x fl => by
    unfold searchDirFree
    dsimp only
    rw [dif_pos rfl]
    exact ⟨_, rfl⟩
  obtain ⟨d, hd⟩ := hex a s.x fl
  obtain ⟨d', hd'⟩ := hex (T.args a) s'.x fun i => fl (T.e i)
  rw [hd, hd']
  dsimp only
  have hdir := isDir_scatter hL hH hp hd
  have hdir' := isDir_scatter hL hH' hp' hd'
  have heq : scatter (idxs fun i => !fl (T.e i)) d' = T.pt (scatter (idxs fun i => !fl i) d) := by
    refine IsDir.unique hp' hdir' ?_
    rw [hs.x]
    exact T.isDir hdir
  have hsl := hdir.slope hp
  rw [heq, dot_real, dot_real, T.dot]
  generalize scatter (idxs fun i => !fl i) d = dir at hsl
  have hsl' : T.c * (dir ⬝ᵥ BoxQP.gradient a s.x) ≤ 0 := mul_nonpos_of_nonneg_of_nonpos T.hc.le hsl
  have hno : ∀ y : ℝ, y ≤ 0 → ltb (lit (1 / 10 ^ 10)) y = false := fun y hy => by
    rw [← Bool.not_eq_true, ltb_real, lit_real]
    push_cast
    norm_num
    linarith
  rw [hno _ hsl, hno _ hsl', hs.x, hs.obj, hs.retval, hs.iter, hcf.maxIter, hs.trace]
  simp only [Bool.false_eq_true, if_false]
  rcases T.simLS hcf hb s.x dir s.obj (dir ⬝ᵥ BoxQP.gradient a s.x) s.retval with ⟨e1, e2⟩ | ⟨r, r', e1, e2, hr⟩
  · rw [e1, e2]
    exact .inr ⟨_, _, rfl, rfl, .inl ⟨rfl, rfl⟩⟩
  · rw [e1, e2]
    dsimp only
    have htr2 : ∀ t t' : Trace n ℝ, t' = T.trace t → s.trace.map T.trace ++ [t'] = (s.trace ++ [t]).map T.trace := fun t t' h => by
      rw [List.map_append, List.map_singleton, h]
    have hpos := h1.pos
    split
    · refine .inr ⟨_, _, rfl, rfl, .inr ⟨_, _, rfl, rfl, ⟨hr.xc, hr.objc, rfl, fun i => rfl, rfl, rfl, hlist.symm, rfl, htr2 _ _ ?_⟩⟩⟩
      simp [Units.trace, hr.stepNum]
    · refine .inl ⟨_, _, rfl, rfl, ⟨hr.xc, hr.objc, rfl, fun i => rfl, rfl, rfl, hlist.symm, hr.retval, htr2 _ _ ?_⟩, ?_, ?_⟩
      · simp [Units.trace, hr.stepNum]
      · exact ⟨by simp, fun _ => rfl, fun _ => hp⟩
      · exact ⟨by simp, fun _ => rfl, fun _ => hp'⟩

theorem Units.init (hb : ∀ i, a.lower i ≤ a.upper i) :
    T.Sim (initState a o) (initState (T.args a) o') ∧ Stored a (initState a o) ∧ Stored (T.args a) (initState (T.args a) o') := by
  have hx : clampBox (T.args a).lower (T.args a).upper (T.args a).init = T.pt (clampBox a.lower a.upper a.init) := T.clamp hb a.init
  have ho : BoxQP.objective (T.args a).H (T.args a).g (T.pt (clampBox a.lower a.upper a.init)) =
      T.c * BoxQP.objective a.H a.g (clampBox a.lower a.upper a.init) := T.objective _
  refine ⟨?_, ⟨le_rfl, fun h => absurd h (lt_irrefl 1), fun h => absurd h (lt_irrefl 1)⟩,
    ⟨le_rfl, fun h => absurd h (lt_irrefl 1), fun h => absurd h (lt_irrefl 1)⟩⟩
  unfold initState
  dsimp only
  rw [hx, ho]
  refine ⟨rfl, rfl, rfl, fun _ => rfl, rfl, rfl, ?_, rfl, ?_⟩
  · simp [Units.list, idxs]
  · have : (fun _ => 0 : Vec n ℝ) = T.pt fun _ => 0 := by funext i; simp [Units.pt]
    simp only [Units.trace, Trace.new, List.map_cons, List.map_nil, ← this]

/-- What is the same in the two units. -/
structure Units.Same (T : Units n) (r r' : Result n ℝ) : Prop where
  x : ∀ i, r'.x i = r.x (T.e i) / T.d i
  iter : r'.iter = r.iter
  retval : r'.obj.retval = r.obj.retval
  free : ∀ i, i ∈ r'.obj.free ↔ T.e i ∈ r.obj.free
  trace : r'.obj.trace = r.obj.trace.map T.trace

/-- **C137** Renaming, rescaling and reflecting the variables and rescaling the objective renames, rescales and reflects the result. -/
theorem C137_units (hL : L.Exact) (hcf : T.Conf c c') (hb : ∀ i, a.lower i ≤ a.upper i) (hH : a.H.IsSymm) :
    (solve L c o a = .diverge ∧ solve L c' o' (T.args a) = .diverge) ∨
      ∃ r r', solve L c o a = .ok r ∧ solve L c' o' (T.args a) = .ok r' ∧ T.Same r r' := by
  have := loopM_rel (f := mainStep L c a) (g := mainStep L c' (T.args a))
    (fun s s' => T.Sim s s' ∧ Stored a s ∧ Stored (T.args a) s')
    (fun r r' => (r = .diverge ∧ r' = .diverge) ∨ ∃ q q', r = .ok q ∧ r' = .ok q' ∧ T.Sim q q')
    (fun s s' h => T.step hL hcf hb hH h.1 h.2.1 h.2.2) (T.init (o := o) (o' := o') hb)
  unfold solve loopR
  rcases this with ⟨e1, e2⟩ | ⟨r, r', e1, e2, ⟨h1, h2⟩ | ⟨q, q', h1, h2, hs⟩⟩
  · rw [e1, e2]; exact .inl ⟨rfl, rfl⟩
  · rw [e1, e2, h1, h2]; exact .inl ⟨rfl, rfl⟩
  · rw [e1, e2, h1, h2]
    refine .inr ⟨_, _, rfl, rfl, ⟨fun i => congrFun hs.x i, hs.iter, hs.retval, fun i => ?_, hs.trace⟩⟩
    show i ∈ q'.free ↔ T.e i ∈ q.free
    rw [hs.free, Units.list, mem_idxs, decide_eq_true_eq]

/-- **C137** Both calls return if the line search is configured to end. -/
theorem C137_units_return (hL : L.Exact) (hcf : T.Conf c c') (hb : ∀ i, a.lower i ≤ a.upper i) (hH : a.H.IsSymm)
    (hmax : 1 ≤ c.maxIter) (hf : c.stepFactor < 1) (hm : 0 < c.minStep) :
    ∃ r r', solve L c o a = .ok r ∧ solve L c' o' (T.args a) = .ok r' ∧ T.Same r r' := by
  obtain ⟨r, h1, -⟩ := C03_terminates_real (L := L) (a := a) (o := o) hmax hf hm
  rcases C137_units (o := o) (o' := o') hL hcf hb hH with ⟨h, -⟩ | h
  · rw [h1] at h; cases h
  · exact h

/-- A strictly convex program with the variables exchanged, one of them reversed, in different units, and the objective in tenths: all hypotheses
are met. -/
example (o o' : Obj 2 ℝ) :
    let a : Args 2 ℝ := ⟨!![2, 1; 1, 3], ![-4, 5], ![0, -1], ![1, 1], ![3, 0]⟩
    let T : Units 2 := ⟨Equiv.swap 0 1, ![2, -3], 10, fun i => by fin_cases i <;> norm_num, by norm_num⟩
    let c : Config ℝ := { Config.default with gradThre := 0 }
    ∃ r r', solve exactLLT c o a = .ok r ∧ solve exactLLT c o' (T.args a) = .ok r' ∧ T.Same r r' := by
  intro a T c
  exact C137_units_return exactLLT_exact ⟨rfl, rfl, rfl, rfl, rfl, .inl ⟨rfl, rfl⟩⟩ (fun i => by fin_cases i <;> norm_num [a])
    (by ext i j; fin_cases i <;> fin_cases j <;> rfl)
    (by norm_num [Config.default, c]) (by norm_num [Config.default, c]) (by norm_num [Config.default, c])

/-- With the default threshold: all variables in the same unit, half the old one, and the objective doubled. -/
example (o o' : Obj 2 ℝ) :
    let a : Args 2 ℝ := ⟨!![2, 1; 1, 3], ![-4, 5], ![0, -1], ![1, 1], ![3, 0]⟩
    let T : Units 2 := ⟨Equiv.swap 0 1, ![1 / 2, -1 / 2], 2, fun i => by fin_cases i <;> norm_num, by norm_num⟩
    ∃ r r', solve exactLLT Config.default o a = .ok r ∧ solve exactLLT Config.default o' (T.args a) = .ok r' ∧ T.Same r r' := by
  intro a T
  exact C137_units_return exactLLT_exact ⟨rfl, rfl, rfl, rfl, rfl, .inr ⟨1 / 2, by norm_num, fun i => by fin_cases i <;> norm_num [T, abs_of_neg],
    by norm_num [T]⟩⟩ (fun i => by fin_cases i <;> norm_num [a]) (by ext i j; fin_cases i <;> fin_cases j <;> rfl)
    (by norm_num [Config.default]) (by norm_num [Config.default]) (by norm_num [Config.default])

end Nmpc.BoxQP
