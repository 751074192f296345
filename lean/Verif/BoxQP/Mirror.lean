import Verif.BoxQP.Model

/-!
# Reflection of a box-constrained program

`BoxQP::solve` on the reflected program (`x ↦ -x`) returns the reflected result, in every arithmetic in which negation is
exact, the operations are odd and the sign of zeros is not represented.
-/

namespace Nmpc

/-- Laws of negation.  They hold in exact arithmetic and are respected by every rounding that is an odd monotone function, up to
the sign of zeros. -/
structure OddLaws (α : Type) [Add α] [Sub α] [Mul α] [Div α] [Neg α] [Zero α] [One α] [FOps α] : Prop where
  neg_neg : ∀ a : α, -(-a) = a
  neg_zero : -(0 : α) = 0
  add : ∀ a b : α, -a + -b = -(a + b)
  sub : ∀ a b : α, -a - -b = -(a - b)
  mul_neg : ∀ a b : α, a * -b = -(a * b)
  neg_mul : ∀ a b : α, -a * b = -(a * b)
  ltb : ∀ a b : α, ltb (-a) (-b) = ltb b a
  eqb : ∀ a b : α, eqb (-a) (-b) = eqb a b
  ltb_trans : ∀ a b c : α, FOps.ltb a b = true → FOps.ltb b c = true → FOps.ltb a c = true
  sub_mono : ∀ a b c : α, FOps.ltb b a = false → FOps.ltb (b - c) (a - c) = false
  dot_neg : ∀ {n : ℕ} (v w : Vec n α), FOps.dot v (-w) = -FOps.dot v w
  neg_dot : ∀ {n : ℕ} (v w : Vec n α), FOps.dot (-v) w = -FOps.dot v w
  mulVec : ∀ {m n : ℕ} (A : Mat m n α) (v : Vec n α), FOps.mulVec A (-v) = -FOps.mulVec A v

theorem oddLaws_real : OddLaws ℝ where
  neg_neg := _root_.neg_neg
  neg_zero := _root_.neg_zero
  add a b := by ring
  sub a b := by ring
  mul_neg a b := by ring
  neg_mul a b := by ring
  ltb a b := by rw [Bool.eq_iff_iff, ltb_real, ltb_real]; exact neg_lt_neg_iff
  eqb a b := by rw [Bool.eq_iff_iff, eqb_real, eqb_real]; exact neg_inj
  ltb_trans a b c h h' := by rw [ltb_real] at *; exact h.trans h'
  sub_mono a b c h := by rw [ltb_real_false] at *; exact sub_le_sub_right h c
  dot_neg v w := by simp
  neg_dot v w := by simp
  mulVec A v := by simp [Matrix.mulVec_neg]

namespace OddLaws
variable {α : Type} [Add α] [Sub α] [Mul α] [Div α] [Neg α] [Zero α] [One α] [FOps α] (hO : OddLaws α)
include hO

theorem neg_mul_neg (a b : α) : -a * -b = a * b := by rw [hO.mul_neg, hO.neg_mul, hO.neg_neg]

theorem dot_neg_neg {n : ℕ} (v w : Vec n α) : FOps.dot (-v) (-w) = FOps.dot v w := by rw [hO.dot_neg, hO.neg_dot, hO.neg_neg]

theorem zero_ltb (a : α) : FOps.ltb 0 (-a) = FOps.ltb a 0 := by rw [← hO.ltb (-a) 0, hO.neg_neg, hO.neg_zero]

theorem ltb_zero (a : α) : FOps.ltb (-a) 0 = FOps.ltb 0 a := by
  conv_lhs => rw [← hO.neg_zero]
  exact hO.ltb a 0

theorem fmax_neg (a b : α) : fmax (-a) (-b) = -fmin a b := by
  unfold fmax fmin
  rw [hO.ltb]
  split <;> rfl

theorem fmin_neg (a b : α) : fmin (-a) (-b) = -fmax a b := by
  unfold fmax fmin
  rw [hO.ltb]
  split <;> rfl

theorem clamp_comm {x l u : α} (h : FOps.ltb u l = false) : fmax (fmin x u) l = fmin (fmax x l) u := by
  unfold fmax fmin
  cases h1 : FOps.ltb u x <;> cases h2 : FOps.ltb x l
  · simp [h1, h2]
  · simp [h2, h]
  · simp [h1, h]
  · rw [hO.ltb_trans _ _ _ h1 h2] at h; cases h

theorem vneg_neg {n : ℕ} (v : Vec n α) : -(-v) = v := funext fun i => hO.neg_neg (v i)

theorem vadd {n : ℕ} (v w : Vec n α) : -v + -w = -(v + w) := funext fun i => hO.add (v i) (w i)

theorem vsub {n : ℕ} (v w : Vec n α) : -v - -w = -(v - w) := funext fun i => hO.sub (v i) (w i)

theorem smulv {n : ℕ} (a : α) (v : Vec n α) : smulv a (-v) = -smulv a v := funext fun i => hO.mul_neg a (v i)

end OddLaws

/-- A loop commutes with a map that commutes with its step. -/
theorem loopM_map {σ ρ : Type} {step step' : σ → σ ⊕ ρ} (f : σ → σ) (g : ρ → ρ)
    (h : ∀ s, step' (f s) = (step s).map f g) (s : σ) : loopM step' (f s) = (loopM step s).map g := by
  rcases loopM_rel (fun s t => t = f s) (fun r p => p = g r) (f := step) (g := step') (s := s) (t := f s)
    (fun s t hst => by
      subst hst
      rw [h s]
      cases hs : step s with
      | inl s' => exact .inl ⟨s', f s', rfl, rfl, rfl⟩
      | inr r => exact .inr ⟨r, g r, rfl, rfl, rfl⟩) rfl with ⟨h1, h2⟩ | ⟨r, p, h1, h2, h3⟩
  · rw [h1, h2]; rfl
  · rw [h1, h2, h3]; rfl

namespace BoxQP

variable {α : Type} [Add α] [Sub α] [Mul α] [Div α] [Neg α] [Zero α] [One α] [FOps α]
variable {n : ℕ} {L : LLT α} {c : Config α} {a : Args n α} {o : Obj n α}

/-- The reflected program. -/
def Args.mirror (a : Args n α) : Args n α :=
  { H := a.H, g := -a.g, lower := -a.upper, upper := -a.lower, init := -a.init }

def Trace.mirror (e : Trace n α) : Trace n α := { e with x := -e.x, searchDir := -e.searchDir }

def Obj.mirror (o : Obj n α) : Obj n α := { o with trace := o.trace.map Trace.mirror }

def State.mirror (s : State n α) : State n α := { s with x := -s.x, trace := s.trace.map Trace.mirror }

def LS.mirror (s : LS n α) : LS n α := { s with xc := -s.xc }

/-- The reflected result: point and search directions are negated, everything else is the same. -/
def Result.mirror (r : Result n α) : Result n α := { x := -r.x, obj := r.obj.mirror, iter := r.iter }

variable (hO : OddLaws α)
include hO

theorem new_mirror (k : ℕ) : (Trace.new n k : Trace n α).mirror = Trace.new n k := by
  unfold Trace.mirror Trace.new
  congr 1 <;> funext i <;> exact hO.neg_zero

theorem objective_mirror (H : Mat n n α) (g x : Vec n α) : objective H (-g) (-x) = objective H g x := by
  unfold objective
  rw [hO.dot_neg_neg, hO.mulVec, hO.dot_neg_neg]

theorem clampBox_mirror {lower upper : Vec n α} (h : ∀ i, ltb (upper i) (lower i) = false) (x : Vec n α) :
    clampBox (-upper) (-lower) (-x) = -clampBox lower upper x := by
  funext i
  show fmax (fmin (-x i) (-lower i)) (-upper i) = -fmax (fmin (x i) (upper i)) (lower i)
  rw [hO.fmin_neg, hO.fmax_neg, hO.clamp_comm (h i)]

theorem candidate_mirror (h : ∀ i, ltb (a.upper i) (a.lower i) = false) (x dir : Vec n α) (step : α) :
    candidate a.mirror (-x) (-dir) step = -candidate a x dir step := by
  unfold candidate
  rw [hO.smulv, hO.vadd]
  exact clampBox_mirror hO h _

theorem lsStep_mirror (h : ∀ i, ltb (a.upper i) (a.lower i) = false) (x dir : Vec n α) (oldObj sdg : α) (s : LS n α) :
    lsStep c a.mirror (-x) (-dir) oldObj sdg s.mirror = (lsStep c a x dir oldObj sdg s).map LS.mirror LS.mirror := by
  unfold lsStep
  dsimp only
  rw [candidate_mirror hO h, show a.mirror.g = -a.g from rfl, objective_mirror hO]
  show (if ltb ((s.objc - oldObj) / (s.step * sdg)) c.armijo then _ else _) = _
  split
  · rw [show s.mirror.step = s.step from rfl]
    split <;> rfl
  · rfl

theorem lineSearch_mirror (h : ∀ i, ltb (a.upper i) (a.lower i) = false) (x dir : Vec n α) (oldObj sdg : α) (rv : ℤ) :
    lineSearch c a.mirror (-x) (-dir) oldObj sdg rv = (lineSearch c a x dir oldObj sdg rv).map LS.mirror := by
  unfold lineSearch
  rw [← loopM_map LS.mirror LS.mirror (lsStep_mirror (c := c) hO h x dir oldObj sdg)]
  congr 1
  unfold lsInit LS.mirror
  rw [candidate_mirror hO h, show a.mirror.g = -a.g from rfl, objective_mirror hO]
  rfl

theorem gradient_mirror (x : Vec n α) : gradient a.mirror (-x) = -gradient a x := by
  unfold gradient
  rw [hO.mulVec]
  exact hO.vadd _ _

theorem clampedFlags_mirror (x grad : Vec n α) : clampedFlags a.mirror (-x) (-grad) = clampedFlags a x grad := by
  funext i
  show (eqb (-x i) (-a.upper i) && ltb 0 (-grad i) || eqb (-x i) (-a.lower i) && ltb (-grad i) 0) = _
  rw [hO.eqb, hO.eqb, hO.zero_ltb, hO.ltb_zero, Bool.or_comm]
  rfl

theorem freeGradNorm_mirror (grad : Vec n α) (free : List (Fin n)) : freeGradNorm (-grad) free = freeGradNorm grad free := by
  unfold freeGradNorm
  congr 1
  funext acc i
  show acc + -grad i * -grad i = _
  rw [hO.neg_mul_neg]

theorem scatter_mirror (r : List (Fin n)) (v : Vec r.length α) : scatter r (-v) = -scatter r v := by
  funext i
  show scatter r (-v) i = -scatter r v i
  unfold scatter
  split
  · rfl
  · exact hO.neg_zero.symm

theorem searchDirFree_mirror (hL : ∀ {k : ℕ} (M : Mat k k α) (b : Vec k α), L.solve M (-b) = -L.solve M b) (x : Vec n α)
    (llt : Option (Σ k : ℕ, Mat k k α)) (free cl : List (Fin n)) :
    searchDirFree L a.mirror (-x) llt free cl = (searchDirFree L a x llt free cl).map fun d => -d := by
  unfold searchDirFree
  cases llt with
  | none => rfl
  | some q =>
    obtain ⟨k, M⟩ := q
    dsimp only
    split
    · rename_i h
      subst h
      show some (smulv (-1) (L.solve M (-subVec a.g free + FOps.mulVec (subMat a.H free cl) (-subVec x cl))) - -subVec x free) =
        some (-(smulv (-1) (L.solve M (subVec a.g free + FOps.mulVec (subMat a.H free cl) (subVec x cl))) - subVec x free))
      rw [hO.mulVec, hO.vadd, hL, hO.smulv, hO.vsub]
    · rfl

theorem mainStep_mirror (hL : ∀ {k : ℕ} (M : Mat k k α) (b : Vec k α), L.solve M (-b) = -L.solve M b)
    (h : ∀ i, ltb (a.upper i) (a.lower i) = false) (s : State n α) :
    mainStep L c a.mirror s.mirror = (mainStep L c a s).map State.mirror (Res.map State.mirror) := by
  have hn := new_mirror hO (n := n) s.iter
  have hfl : clampedFlags a.mirror (-s.x) (gradient a.mirror (-s.x)) = clampedFlags a s.x (gradient a s.x) := by
    rw [gradient_mirror hO, clampedFlags_mirror hO]
  unfold mainStep
  dsimp only
  generalize hF : clampedFlags a.mirror s.mirror.x (gradient a.mirror s.mirror.x) = fl
  rw [show s.mirror.x = -s.x from rfl, hfl] at hF
  subst hF
  simp only [show s.mirror.x = -s.x from rfl, show s.mirror.obj = s.obj from rfl, show s.mirror.oldObj = s.oldObj from rfl,
    show s.mirror.clamped = s.clamped from rfl, show s.mirror.iter = s.iter from rfl, show s.mirror.factNum = s.factNum from rfl,
    show s.mirror.llt = s.llt from rfl, show s.mirror.retval = s.retval from rfl, show a.mirror.H = a.H from rfl,
    show s.mirror.trace = s.trace.map Trace.mirror from rfl]
  rw [gradient_mirror hO, freeGradNorm_mirror hO, searchDirFree_mirror hO hL]
  have htr : s.trace.map Trace.mirror ++ [Trace.new n s.iter] = (s.trace ++ [Trace.new n s.iter]).map Trace.mirror := by
    rw [List.map_append, List.map_singleton, hn]
  rw [htr]
  split
  · rfl
  split
  · rfl
  split
  · rfl
  split
  · rfl
  generalize searchDirFree L a s.x _ _ _ = sd
  cases sd with
  | none => rfl
  | some d =>
    simp only [Option.map_some]
    rw [scatter_mirror hO, hO.dot_neg_neg]
    split
    · rfl
    rw [lineSearch_mirror hO h]
    generalize lineSearch c a s.x _ _ _ _ = ls
    cases ls with
    | none => rfl
    | some ls =>
      simp only [Option.map_some]
      split
      · simp [Sum.map, Res.map, Res.bind, State.mirror, LS.mirror, Trace.mirror]
      · simp [Sum.map, State.mirror, LS.mirror, Trace.mirror]

/-- **C125** `BoxQP::solve` on the reflected program returns the reflected result. -/
theorem C125_boxqp_mirror (hL : ∀ {k : ℕ} (M : Mat k k α) (b : Vec k α), L.solve M (-b) = -L.solve M b)
    (h : ∀ i, ltb (a.upper i) (a.lower i) = false) :
    solve L c o a.mirror = (solve L c o a).map Result.mirror := by
  have hi : initState a.mirror o = (initState a o).mirror := by
    have hx : clampBox a.mirror.lower a.mirror.upper a.mirror.init = -clampBox a.lower a.upper a.init :=
      clampBox_mirror hO h _
    unfold initState
    dsimp only
    rw [hx, show a.mirror.g = -a.g from rfl, show a.mirror.H = a.H from rfl, objective_mirror hO]
    simp only [State.mirror, List.map_singleton]
    congr 2
    unfold Trace.mirror
    congr 1
    funext i
    exact hO.neg_zero.symm
  unfold solve loopR
  rw [hi, loopM_map State.mirror (Res.map State.mirror) (mainStep_mirror (c := c) hO hL h)]
  generalize loopM (mainStep L c a) (initState a o) = q
  cases q with
  | none => rfl
  | some r => cases r <;> rfl

end BoxQP

end Nmpc
