import Verif.Problems.Deriv
import Verif.Base.Sim

/-!
# C107: the marker arrays published by the cart-pole nodes

`makeMarkerArr` (TestDDPCartPole.cpp 422-569, TestFmpcCartPole.cpp 438-585); the two functions are the same except for the name of the
problem.  Colours, sizes, headers and orientations are left out.
-/

namespace Nmpc.Problems

section Model
variable {α : Type} [Add α] [Sub α] [Mul α] [Div α] [Neg α] [Zero α] [One α] [FOps α] [Trig α]

/-- `visualization_msgs::Marker::type` / `action` as far as used. -/
inductive MarkerKind where
  | deleteAll
  | cube
  | cylinder
  | lineList
  | arrow
  deriving DecidableEq

/-- Part of `visualization_msgs::Marker`; `id` is zero unless it is set. -/
structure Marker (α : Type) where
  kind : MarkerKind
  ns : String
  id : ℕ
  pos : α × α × α
  points : List (α × α)

/-- `makeMarkerArr()` for the members `current_x_`, `current_u_[0]`, `dist_u_[0]` and the value of `getRefPos(current_t_)`.
Line 461 of TestDDPCartPole.cpp (477 of TestFmpcCartPole.cpp) sets the id of the cart marker, which is already in the array, in place
of the id of the mass marker. -/
def makeMarkerArr (p : CartPole α) (x : Vec 4 α) (u d target : α) : List (Marker α) :=
  let arr : List (Marker α) := []
  let arr := arr ++ [{ kind := .deleteAll, ns := "", id := arr.length, pos := (0, 0, 0), points := [] }]
  let cartX := x 0
  let arr := arr ++ [{ kind := .cube, ns := "cart", id := arr.length, pos := (cartX, 0, 0), points := [] }]
  let massX := x 0 + p.l * -1 * Trig.sin (x 1)
  let massY := p.l * Trig.cos (x 1)
  let arr := arr ++ [{ kind := .cylinder, ns := "mass", id := 0, pos := (massX, massY, lit 2), points := [] }]
  let arr := arr ++ [{ kind := .lineList, ns := "pole", id := arr.length, pos := (0, 0, lit 1), points := [(cartX, 0), (massX, massY)] }]
  let arr := if ltb (lit 1) (FOps.abs u) then
      arr ++ [{ kind := .arrow, ns := "force", id := arr.length, pos := (0, 0, lit 3)
                points := [(cartX, 0), (cartX + lit (4 / 100) * u, 0)] }]
    else arr
  let arr := if ltb (lit 1) (FOps.abs d) then
      arr ++ [{ kind := .arrow, ns := "disturbance", id := arr.length, pos := (0, 0, lit 3)
                points := [(cartX, 0), (cartX + lit (4 / 100) * d, 0)] }]
    else arr
  arr ++ [{ kind := .lineList, ns := "target", id := arr.length, pos := (0, 0, lit (-1))
            points := [(target, lit (-1000)), (target, lit 1000)] }]

end Model

variable (p : CartPole ℝ) (x : Vec 4 ℝ) (u d target : ℝ)

/-- **C107** No two markers of one array have the same namespace and id, so none replaces another in the display; the array begins with
the request to delete the old ones. -/
theorem C107_unique :
    ((makeMarkerArr p x u d target).map fun k => (k.ns, k.id)).Nodup ∧
      ∃ rest, makeMarkerArr p x u d target = ⟨.deleteAll, "", 0, (0, 0, 0), []⟩ :: rest ∧ ∀ k ∈ rest, k.kind ≠ .deleteAll := by
  unfold makeMarkerArr
  dsimp only
  constructor
  · split <;> split <;> simp
  · split <;> split <;> exact ⟨_, rfl, by simp⟩

/-- The array, written out. -/
theorem makeMarkerArr_eq : ∃ i j : ℕ, makeMarkerArr p x u d target =
    [⟨.deleteAll, "", 0, (0, 0, 0), []⟩, ⟨.cube, "cart", 1, (x 0, 0, 0), []⟩,
      ⟨.cylinder, "mass", 0, (x 0 - p.l * Real.sin (x 1), p.l * Real.cos (x 1), 2), []⟩,
      ⟨.lineList, "pole", 3, (0, 0, 1), [(x 0, 0), (x 0 - p.l * Real.sin (x 1), p.l * Real.cos (x 1))]⟩] ++
    (if 1 < |u| then [⟨.arrow, "force", 4, (0, 0, 3), [(x 0, 0), (x 0 + u / 25, 0)]⟩] else []) ++
    (if 1 < |d| then [⟨.arrow, "disturbance", i, (0, 0, 3), [(x 0, 0), (x 0 + d / 25, 0)]⟩] else []) ++
    [⟨.lineList, "target", j, (0, 0, -1), [(target, -1000), (target, 1000)]⟩] := by
  have e : ∀ v : ℝ, (lit (4 / 100 : ℚ) : ℝ) * v = v / 25 := by intro v; norm_num; ring
  have e' : x 0 + p.l * -1 * Real.sin (x 1) = x 0 - p.l * Real.sin (x 1) := by ring
  have el1 : (lit (1 : ℚ) : ℝ) = 1 := by norm_num
  unfold makeMarkerArr
  simp only [ltb_real, abs_real, el1, e, sin_real, cos_real, e']
  by_cases hu : 1 < |u| <;> by_cases hd : 1 < |d| <;> simp only [hu, hd, if_true, if_false] <;> norm_num

/-- **C107** The pole is drawn from the cart to the mass, its length is the length of the pole, and it points straight up exactly if the
angle is a multiple of a full turn (positive length). -/
theorem C107_pole {k c w : Marker ℝ} (hk : k ∈ makeMarkerArr p x u d target) (hn : k.ns = "pole")
    (hc : c ∈ makeMarkerArr p x u d target) (hcn : c.ns = "cart") (hw : w ∈ makeMarkerArr p x u d target) (hwn : w.ns = "mass") :
    ∃ a b : ℝ × ℝ, k.points = [a, b] ∧ (c.pos.1, c.pos.2.1) = a ∧ a = (x 0, 0) ∧ (w.pos.1, w.pos.2.1) = b ∧
      (b.1 - a.1) ^ 2 + (b.2 - a.2) ^ 2 = p.l ^ 2 ∧ (0 < p.l → (b = (x 0, p.l) ↔ ∃ j : ℤ, (j : ℝ) * (2 * Real.pi) = x 1)) := by
  obtain ⟨i, j, he⟩ := makeMarkerArr_eq p x u d target
  rw [he] at hk hc hw
  have hk' : k = ⟨.lineList, "pole", 3, (0, 0, 1), [(x 0, 0), (x 0 - p.l * Real.sin (x 1), p.l * Real.cos (x 1))]⟩ := by
    by_cases hu : 1 < |u| <;> by_cases hd : 1 < |d| <;>
      simp only [hu, hd, if_true, if_false, List.cons_append, List.nil_append, List.append_nil, List.mem_cons, List.not_mem_nil, or_false] at hk <;>
      rcases hk with rfl | rfl | rfl | rfl | rfl | rfl | rfl <;> simp_all
  have hc' : c = ⟨.cube, "cart", 1, (x 0, 0, 0), []⟩ := by
    by_cases hu : 1 < |u| <;> by_cases hd : 1 < |d| <;>
      simp only [hu, hd, if_true, if_false, List.cons_append, List.nil_append, List.append_nil, List.mem_cons, List.not_mem_nil, or_false] at hc <;>
      rcases hc with rfl | rfl | rfl | rfl | rfl | rfl | rfl <;> simp_all
  have hw' : w = ⟨.cylinder, "mass", 0, (x 0 - p.l * Real.sin (x 1), p.l * Real.cos (x 1), 2), []⟩ := by
    by_cases hu : 1 < |u| <;> by_cases hd : 1 < |d| <;>
      simp only [hu, hd, if_true, if_false, List.cons_append, List.nil_append, List.append_nil, List.mem_cons, List.not_mem_nil, or_false] at hw <;>
      rcases hw with rfl | rfl | rfl | rfl | rfl | rfl | rfl <;> simp_all
  subst hk' hc' hw'
  refine ⟨_, _, rfl, rfl, rfl, rfl, ?_, fun hl => ?_⟩
  · dsimp only
    linear_combination p.l ^ 2 * Real.sin_sq_add_cos_sq (x 1)
  · rw [Prod.mk.injEq, ← Real.cos_eq_one_iff]
    constructor
    · rintro ⟨-, h⟩
      exact mul_left_cancel₀ hl.ne' (by rw [h, mul_one])
    · intro h
      have hs : Real.sin (x 1) = 0 := by
        have := Real.sin_sq_add_cos_sq (x 1)
        rw [h] at this
        exact pow_eq_zero_iff (two_ne_zero) |>.1 (by linarith)
      rw [h, hs]
      constructor <;> ring

/-- **C107** An arrow for the input is shown exactly if its absolute value exceeds 1 N; it starts at the cart, has 4 cm per newton and
points in the direction of the force.  The same for the disturbance. -/
theorem C107_arrows :
    ((∃ k ∈ makeMarkerArr p x u d target, k.ns = "force") ↔ 1 < |u|) ∧
    (∀ k ∈ makeMarkerArr p x u d target, k.ns = "force" → k.points = [(x 0, 0), (x 0 + u / 25, 0)]) ∧
    ((∃ k ∈ makeMarkerArr p x u d target, k.ns = "disturbance") ↔ 1 < |d|) ∧
    (∀ k ∈ makeMarkerArr p x u d target, k.ns = "disturbance" → k.points = [(x 0, 0), (x 0 + d / 25, 0)]) ∧
    ∃ k ∈ makeMarkerArr p x u d target, k.ns = "target" ∧ ∀ a ∈ k.points, a.1 = target := by
  obtain ⟨i, j, he⟩ := makeMarkerArr_eq p x u d target
  rw [he]
  by_cases hu : 1 < |u| <;> by_cases hd : 1 < |d| <;> simp [hu, hd] <;> rintro a b (h | h) <;> exact h.1

/-- **C107** The ids are meant to be the positions in the array, but the mass marker keeps the id zero: line 461 sets the id of the cart
marker again. -/
theorem C107_mass_id_fails : ∃ k : Marker ℝ, (makeMarkerArr p x u d target)[2]? = some k ∧ k.ns = "mass" ∧ k.id = 0 := by
  obtain ⟨i, j, he⟩ := makeMarkerArr_eq p x u d target
  rw [he]
  exact ⟨_, rfl, rfl, rfl⟩

/-- Pole hanging down at the origin, a push of 10 N to the left, a disturbance of 0.5 N: one arrow. -/
example : (makeMarkerArr (CartPole.default : CartPole ℝ) ![0, Real.pi, 0, 0] (-10) (1 / 2) 5).map (fun k => k.ns) =
    ["", "cart", "mass", "pole", "force", "target"] := by
  obtain ⟨i, j, he⟩ := makeMarkerArr_eq (CartPole.default : CartPole ℝ) ![0, Real.pi, 0, 0] (-10) (1 / 2) 5
  rw [he, if_pos (by norm_num), if_neg (by rw [abs_of_pos (by norm_num)]; norm_num)]
  rfl

end Nmpc.Problems
