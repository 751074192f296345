import Verif.Text.Model
import Mathlib.Data.List.Basic
import Mathlib.Order.Basic
import Mathlib.Tactic.Ring
import Mathlib.Tactic.Linarith

/-!
# Background colours in plotTestDDPVerticalMotion.py (model)

Lines 15-22, 30-41, 50-52: the plots of the vertical motion test are shaded according to the number of contacts.
-/

namespace Nmpc.Text

/-- An index of a Python sequence of length `n`: negative indices count from the end; `none` is an `IndexError`. -/
def pyIndex (n : ℕ) (i : ℤ) : Option ℕ :=
  if 0 ≤ i then (if i < n then some i.toNat else none) else if 0 ≤ i + n then some (i + n).toNat else none

/-- Lines 16-17: `num_contact_diff_list`. -/
def diffs (l : List ℕ) : List Bool :=
  false :: List.zipWith (fun (a b : ℕ) => decide ((a : ℤ) - (b : ℤ) ≠ 0)) l.tail l.dropLast

/-- `np.where(bs)[0]`. -/
def npWhere (bs : List Bool) : List ℕ := (List.range bs.length).filter fun i => bs[i]? = some true

/-- Lines 18-20: `num_contact_switch_idx_list`. -/
def switchIdx (l : List ℕ) : List ℤ := 0 :: (npWhere (diffs l)).map (fun i => (i : ℤ)) ++ [-1]

/-- A call of `axvspan`: the positions of the two times in the column, colour and label. -/
structure Span where
  start : ℕ
  stop : ℕ
  color : String
  label : Option String

/-- Lines 35-40: the text of the label. -/
def contactLabel (c : ℕ) : String :=
  if c = 0 then "no contact" else if c = 1 then "1 contact" else String.ofList (printNat c ++ " contacts".toList)

/-- One round of the loop in lines 30-41. -/
def spanOf (l : List ℕ) (p : ℤ × ℤ) : Option Span :=
  (pyIndex l.length p.1).bind fun s =>
  (l[s]?).bind fun c =>
  (pyIndex l.length p.2).bind fun e =>
  (["blue", "green", "yellow"][c]?).bind fun color =>
  some { start := s, stop := e, color := color, label := if s ≠ l.idxOf c then none else some (contactLabel c) }

/-- The shading of the first plot for the column `num_contact` (lines 15-41; lines 50-52 repeat it without labels); `none`: the script
fails.  For a file with a single line `genfromtxt` returns an array of dimension zero, which cannot be sliced. -/
def spans (l : List ℕ) : Option (List Span) :=
  if l.length = 1 then none else
    (List.zip (switchIdx l).dropLast (switchIdx l).tail).mapM (spanOf l)

/-- Pairs of neighbours. -/
def pairs (s : ℕ) (w : List ℕ) (e : ℕ) : List (ℕ × ℕ) := List.zip (s :: w) (w ++ [e])

theorem pairs_cons (s a : ℕ) (w : List ℕ) (e : ℕ) : pairs s (a :: w) e = (s, a) :: pairs a w e := rfl

theorem pairs_fst (s : ℕ) (w : List ℕ) (e : ℕ) : (pairs s w e).map Prod.fst = s :: w := by
  unfold pairs
  rw [List.map_fst_zip]
  simp

theorem pairs_facts {s : ℕ} {w : List ℕ} {e : ℕ} (hw : (s :: w).Pairwise (· < ·)) (he : ∀ j ∈ s :: w, j ≤ e) :
    (pairs s w e).Pairwise (fun p q => p.2 ≤ q.1) ∧
    (∀ p ∈ pairs s w e, s ≤ p.1 ∧ p.1 ≤ p.2 ∧ p.2 ≤ e ∧ ∀ j ∈ s :: w, j ≤ p.1 ∨ p.2 ≤ j) ∧
    ∀ i, s ≤ i → i < e → ∃ p ∈ pairs s w e, p.1 ≤ i ∧ i < p.2 := by
  induction w generalizing s with
  | nil =>
    refine ⟨by simp [pairs], ?_, ?_⟩
    · intro p hp
      obtain rfl : p = (s, e) := by simpa [pairs] using hp
      exact ⟨le_rfl, he s (by simp), le_rfl, fun j hj => .inl (by simp at hj; exact hj.le)⟩
    · intro i h1 h2
      exact ⟨(s, e), by simp [pairs], h1, h2⟩
  | cons a w ih =>
    rw [List.pairwise_cons] at hw
    obtain ⟨k1, k2, k3⟩ := ih hw.2 (fun j hj => he j (List.mem_cons_of_mem _ hj))
    have hsa : s < a := hw.1 a (by simp)
    rw [pairs_cons]
    refine ⟨List.pairwise_cons.2 ⟨fun q hq => (k2 q hq).1, k1⟩, ?_, ?_⟩
    · intro p hp
      rcases List.mem_cons.1 hp with rfl | hp
      · refine ⟨le_rfl, hsa.le, he a (by simp), fun j hj => ?_⟩
        rcases List.mem_cons.1 hj with rfl | hj
        · exact .inl le_rfl
        · right
          rcases List.mem_cons.1 hj with rfl | hj'
          · exact le_rfl
          · exact ((List.pairwise_cons.1 hw.2).1 j hj').le
      · obtain ⟨c1, c2, c3, c4⟩ := k2 p hp
        refine ⟨hsa.le.trans c1, c2, c3, fun j hj => ?_⟩
        rcases List.mem_cons.1 hj with rfl | hj
        · exact .inl (hsa.le.trans c1)
        · exact c4 j hj
    · intro i h1 h2
      by_cases hi : i < a
      · exact ⟨(s, a), by simp, h1, hi⟩
      · obtain ⟨p, hp, c⟩ := k3 i (by omega) h2
        exact ⟨p, List.mem_cons_of_mem _ hp, c⟩

variable {l : List ℕ}

theorem diffs_length (hl : l ≠ []) : (diffs l).length = l.length := by
  have := List.length_pos_iff.2 hl
  simp [diffs]
  omega

theorem mem_switch (hl : l ≠ []) {i : ℕ} : i ∈ npWhere (diffs l) ↔ 0 < i ∧ i < l.length ∧ l[i]? ≠ l[i - 1]? := by
  unfold npWhere
  rw [List.mem_filter, List.mem_range, diffs_length hl]
  constructor
  · rintro ⟨h1, h2⟩
    cases i with
    | zero => simp [diffs] at h2
    | succ i =>
      refine ⟨Nat.succ_pos _, h1, ?_⟩
      simp only [diffs, List.getElem?_cons_succ, List.getElem?_zipWith, List.getElem?_tail, List.getElem?_dropLast] at h2
      rw [if_pos (by omega)] at h2
      rw [Nat.add_sub_cancel, List.getElem?_eq_getElem h1, List.getElem?_eq_getElem (by omega : i < l.length)] at *
      simp at h2 ⊢
      omega
  · rintro ⟨h0, h1, h2⟩
    obtain ⟨i, rfl⟩ : ∃ k, i = k + 1 := ⟨i - 1, by omega⟩
    refine ⟨h1, ?_⟩
    simp only [diffs, List.getElem?_cons_succ, List.getElem?_zipWith, List.getElem?_tail, List.getElem?_dropLast]
    rw [if_pos (by omega)]
    rw [Nat.add_sub_cancel, List.getElem?_eq_getElem h1, List.getElem?_eq_getElem (by omega : i < l.length)] at *
    simp at h2 ⊢
    omega

theorem switch_sorted : (0 :: npWhere (diffs l)).Pairwise (· < ·) := by
  rw [List.pairwise_cons]
  constructor
  · intro i hi
    unfold npWhere at hi
    rw [List.mem_filter] at hi
    rcases Nat.eq_zero_or_pos i with rfl | h
    · simp [diffs] at hi
    · exact h
  · exact List.pairwise_lt_range.filter _

/-- Between switches the number of contacts is constant. -/
theorem const_between {s i : ℕ} (hsi : s ≤ i) (hi : i < l.length) (h : ∀ j ∈ npWhere (diffs l), j ≤ s ∨ i < j) : l[i]? = l[s]? := by
  have hl : l ≠ [] := by rintro rfl; simp at hi
  induction i, hsi using Nat.le_induction with
  | base => rfl
  | succ i hsi ih =>
    rw [← ih (by omega) (fun j hj => (h j hj).imp_right (by omega))]
    by_contra hne
    have := h (i + 1) ((mem_switch hl).2 ⟨by omega, hi, by simpa using hne⟩)
    omega

/-- The index pairs of the loop. -/
theorem zip_switchIdx : List.zip (switchIdx l).dropLast (switchIdx l).tail =
    List.zip ((0 :: npWhere (diffs l)).map (fun i => (i : ℤ))) ((npWhere (diffs l)).map (fun i => (i : ℤ)) ++ [-1]) := by
  unfold switchIdx
  congr 1
  rw [List.dropLast_concat]
  rfl

/-- Resolved, they are the neighbours among 0, the switches and the last index. -/
theorem mapM_zip {β : Type} (f : ℤ × ℤ → Option β) (g : ℕ × ℕ → Option β) (e : ℕ) :
    ∀ (s : ℕ) (w : List ℕ), (∀ a b : ℕ, f (a, b) = g (a, b)) → (∀ a : ℕ, f (a, -1) = g (a, e)) →
      (List.zip ((s :: w).map (fun i => (i : ℤ))) (w.map (fun i => (i : ℤ)) ++ [-1])).mapM f = (pairs s w e).mapM g
  | s, [], h1, h2 => by simp [pairs, h2]
  | s, a :: w, h1, h2 => by
    have ih := mapM_zip f g e a w h1 h2
    have e1 : List.zip ((s :: a :: w).map (fun i => (i : ℤ))) ((a :: w).map (fun i => (i : ℤ)) ++ [-1]) =
      ((s : ℤ), (a : ℤ)) :: List.zip ((a :: w).map (fun i => (i : ℤ))) (w.map (fun i => (i : ℤ)) ++ [-1]) := rfl
    rw [e1, pairs_cons, List.mapM_cons, List.mapM_cons, h1, ih]

theorem mapM_some {β γ : Type} {f : β → Option γ} {g : β → γ} :
    ∀ {l : List β}, (∀ a ∈ l, f a = some (g a)) → l.mapM f = some (l.map g)
  | [], _ => rfl
  | a :: l, h => by
    rw [List.mapM_cons, h a (by simp), mapM_some fun b hb => h b (List.mem_cons_of_mem _ hb)]
    rfl

theorem mapM_none {β γ : Type} {f : β → Option γ} {a : β} (ha : f a = none) : ∀ {l : List β}, a ∈ l → l.mapM f = none
  | b :: l, h => by
    rw [List.mapM_cons]
    rcases List.mem_cons.1 h with rfl | h
    · rw [ha]; rfl
    · rw [mapM_none ha h]
      cases f b <;> rfl

/-- One span for resolved indices. -/
def spanAt (l : List ℕ) (p : ℕ × ℕ) : Option Span :=
  if p.1 < l.length ∧ p.2 < l.length then spanOf l ((p.1 : ℤ), (p.2 : ℤ)) else none

theorem pyIndex_nat {n i : ℕ} : pyIndex n i = if i < n then some i else none := by
  unfold pyIndex
  rw [if_pos (by omega)]
  norm_cast

theorem spans_eq (h2 : 2 ≤ l.length) : spans l = (pairs 0 (npWhere (diffs l)) (l.length - 1)).mapM (spanAt l) := by
  unfold spans
  rw [if_neg (by omega), zip_switchIdx]
  refine mapM_zip _ _ _ _ _ ?_ ?_
  · intro a b
    unfold spanAt
    split
    · rfl
    · rename_i h
      unfold spanOf
      rw [pyIndex_nat, pyIndex_nat]
      by_cases ha : a < l.length
      · have hb : ¬ b < l.length := fun hb => h ⟨ha, hb⟩
        simp only [ha, hb, if_true, if_false, Option.bind_none, Option.bind_fun_none]
      · simp only [ha, if_false, Option.bind_none]
  · intro a
    have hm : pyIndex l.length (-1) = some (l.length - 1) := by
      unfold pyIndex
      rw [if_neg (by omega), if_pos (by omega)]
      congr 1
      omega
    have hm' : pyIndex l.length ((l.length - 1 : ℕ) : ℤ) = some (l.length - 1) := by rw [pyIndex_nat, if_pos (by omega)]
    unfold spanAt
    split
    · unfold spanOf
      rw [hm, hm']
    · rename_i h
      unfold spanOf
      rw [pyIndex_nat, if_neg (by
        intro h'
        exact h ⟨h', by dsimp only; omega⟩)]
      rfl

/-- The colours of the script. -/
def contactColor : ℕ → String
  | 0 => "blue"
  | 1 => "green"
  | _ => "yellow"

theorem spanAt_some {p : ℕ × ℕ} (h1 : p.1 < l.length) (h2 : p.2 < l.length) {c : ℕ} (hc : l[p.1]? = some c) (h3 : c < 3) :
    spanAt l p = some ⟨p.1, p.2, contactColor c, if p.1 ≠ l.idxOf c then none else some (contactLabel c)⟩ := by
  unfold spanAt spanOf
  rw [if_pos ⟨h1, h2⟩, pyIndex_nat, pyIndex_nat, if_pos h1, if_pos h2]
  simp only [Option.bind_some, hc]
  interval_cases c <;> rfl

end Nmpc.Text
