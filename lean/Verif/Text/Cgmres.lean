import Verif.Text.Lemmas
import Verif.CGMRES.Sim

/-!
# The files of the C/GMRES simulation and their reader (C78)
-/

namespace Nmpc.Text

variable {α : Type} {F : NumFmt α} {n m : ℕ}

/-- Text after the first value of a line. -/
theorem csv_append (sep t : Str) (l : List Str) (hl : l ≠ []) : t ++ sep ++ sep.intercalate l = sep.intercalate (t :: l) := by
  match l, hl with
  | a :: l, _ => rw [List.intercalate_cons_cons]

theorem intercalate_comma (t : Str) (l : List Str) : [',', ' '].intercalate (t :: l) = [','].intercalate (t :: l.map fun s => ' ' :: s) := by
  induction l generalizing t with
  | nil => simp
  | cons a l ih =>
    rw [List.intercalate_cons_cons, ih a]
    cases l with
    | nil => simp [List.intercalate_cons_cons]
    | cons b l => simp [List.intercalate_cons_cons]

/-- A line of comma separated values, padded by Eigen. -/
theorem splitLine_csv {t : Str} (ht : Clean t) {toks : List Str} (hne : toks ≠ []) (h : ∀ s ∈ toks, Clean s) :
    splitLine (some ',') (t ++ [',', ' '] ++ fmtVec [',', ' '] toks) =
      t :: toks.map fun s => ' ' :: pad ((toks.map List.length).foldr max 0) s := by
  generalize hw : (toks.map List.length).foldr max 0 = w
  have hp : ∀ s ∈ toks, ∀ c ∈ (' ' :: pad w s), c = ' ' ∨ c ∈ s := by
    intro s _ c hc
    unfold pad at hc
    simp only [List.mem_cons, List.mem_append, List.mem_replicate] at hc
    tauto
  have hlast : ∀ s ∈ toks, (' ' :: pad w s).getLast? = s.getLast? := by
    intro s hs
    have : (' ' :: pad w s) = (' ' :: List.replicate (w - s.length) ' ') ++ s := rfl
    rw [this, List.getLast?_append]
    cases hx : s.getLast? with
    | none => exact absurd (List.getLast?_eq_none_iff.1 hx) (h s hs).nonempty
    | some c => rfl
  set l := toks.map fun s => ' ' :: pad w s with hl
  have heq : t ++ [',', ' '] ++ fmtVec [',', ' '] toks = [','].intercalate (t :: l) := by
    unfold fmtVec
    rw [hw, csv_append _ _ _ (by simpa using hne), intercalate_comma, List.map_map]
    rfl
  have hne' : ∀ s ∈ t :: l, s ≠ [] := by
    intro s hs
    rcases List.mem_cons.1 hs with rfl | hs
    · exact ht.nonempty
    · obtain ⟨q, _, rfl⟩ := List.mem_map.1 hs
      simp
  rw [heq, splitLine_tight]
  · apply List.splitOn_intercalate _ _ (by simp)
    intro s hs hc
    rcases List.mem_cons.1 hs with rfl | hs
    · exact ht.chars _ hc (by decide)
    · obtain ⟨q, hq, rfl⟩ := List.mem_map.1 hs
      rcases hp q hq _ hc with h' | h'
      · revert h'; decide
      · exact (h q hq).chars _ h' (by decide)
  · constructor
    · intro c hc
      rw [head_intercalate ht.nonempty] at hc
      exact ht.chars c (List.mem_of_mem_head? hc)
    · intro c hc
      obtain ⟨q, hq, h1⟩ := getLast_intercalate (sep := [',']) (by simp) hne'
      rw [h1] at hc
      rcases List.mem_cons.1 hq with rfl | hq
      · exact ht.chars c (List.mem_of_getLast? hc)
      · obtain ⟨s, hs, rfl⟩ := List.mem_map.1 hq
        rw [hlast s hs] at hc
        exact (h s hs).chars c (List.mem_of_getLast? hc)
  · exact intercalate_ne_nil (by simp) hne'
  · intro hc
    rcases mem_intercalate hc with hc | ⟨s, hs, hc'⟩
    · revert hc; decide
    · rcases List.mem_cons.1 hs with rfl | hs
      · exact ht.chars _ hc' (by decide)
      · obtain ⟨q, hq, rfl⟩ := List.mem_map.1 hs
        rcases hp q hq _ hc' with h' | h'
        · revert h'; decide
        · exact (h q hq).chars _ h' (by decide)

/-- Files of this form: a time and a nonempty vector per line. -/
def csv (F : NumFmt α) (rows : List (α × List α)) : Str :=
  rows.flatMap fun r => (F.print r.1 ++ [',', ' '] ++ fmtVec [',', ' '] (r.2.map F.print)) ++ ['\n']

theorem valueLines_csv (hF : F.Ok) {rows : List (α × List α)} (hne : ∀ r ∈ rows, r.2 ≠ []) :
    ∃ f : α × List α → List Str, (∀ r, (f r).map (readNum F) = some (F.round r.1) :: r.2.map fun v => some (F.round v)) ∧
      valueLines (some ',') (csv F rows) = rows.map f := by
  refine ⟨fun r => F.print r.1 :: (r.2.map F.print).map fun s =>
    ' ' :: pad (((r.2.map F.print).map List.length).foldr max 0) s, ?_, ?_⟩
  · intro r
    rw [List.map_cons, readNum_print hF, List.map_map, List.map_map]
    congr 1
    apply List.map_congr_left
    intro v _
    exact readNum_pad hF v (_ + 1)
  · have hs : ∀ r ∈ rows, splitLine (some ',') (F.print r.1 ++ [',', ' '] ++ fmtVec [',', ' '] (r.2.map F.print)) = _ := fun r hr =>
      splitLine_csv (clean_print hF r.1) (by simpa using hne r hr) (by
        intro s hs
        obtain ⟨v, _, rfl⟩ := List.mem_map.1 hs
        exact clean_print hF v)
    have := valueLines_lines (delim := some ',')
      (ls := rows.map fun r => F.print r.1 ++ [',', ' '] ++ fmtVec [',', ' '] (r.2.map F.print)) (by
        intro l hl hc
        obtain ⟨r, hr, rfl⟩ := List.mem_map.1 hl
        rw [List.append_assoc, List.mem_append, List.mem_append] at hc
        rcases hc with hc | hc | hc
        · exact hF.clean _ _ hc (by decide)
        · revert hc; decide
        · rcases mem_intercalate hc with hc | ⟨s, hs, hc⟩
          · revert hc; decide
          · obtain ⟨q, hq, rfl⟩ := List.mem_map.1 hs
            obtain ⟨v, _, rfl⟩ := List.mem_map.1 hq
            unfold pad at hc
            rw [List.mem_append, List.mem_replicate] at hc
            rcases hc with ⟨_, hc⟩ | hc
            · revert hc; decide
            · exact hF.clean _ _ hc (by decide)) (by
        intro l hl
        obtain ⟨r, hr, rfl⟩ := List.mem_map.1 hl
        rw [hs r hr]
        simp)
    rw [List.flatMap_map, List.map_map] at this
    unfold csv
    rw [this]
    exact List.map_congr_left hs

/-- The numbers read from such a file. -/
theorem loadData_csv (hF : F.Ok) {rows : List (α × List α)} {k : ℕ} (hk : 0 < k) (hl : ∀ r ∈ rows, r.2.length = k) (h0 : rows ≠ []) :
    loadData F (csv F rows) = some (squeeze (rows.map fun r => some (F.round r.1) :: r.2.map fun v => some (F.round v))) := by
  obtain ⟨f, hf, hv⟩ := valueLines_csv hF (rows := rows) (by
    intro r hr h0
    have := hl r hr
    rw [h0] at this
    simp at this
    omega)
  have hlen : ∀ r ∈ rows, (f r).length = k + 1 := by
    intro r hr
    have := congrArg List.length (hf r)
    simpa [hl r hr] using this
  unfold loadData readPlain
  rw [hv]
  match rows, h0 with
  | r :: rows, _ =>
    rw [List.map_cons]
    dsimp only
    rw [if_pos, Option.map_some, ← List.map_cons, List.map_map]
    · congr 2
      exact List.map_congr_left fun r _ => hf r
    · rw [List.all_eq_true]
      intro q hq
      obtain ⟨p, hp, rfl⟩ := List.mem_map.1 hq
      simp [hlen p (List.mem_cons_of_mem _ hp), hlen r (by simp)]

theorem dumpX_eq (ds : List (Cgmres.Dump n m α)) : dumpX F ds = csv F (ds.map fun d => (d.t, List.ofFn d.x)) := by
  unfold dumpX csv
  rw [List.flatMap_map]
  rfl

theorem dumpU_eq (ds : List (Cgmres.Dump n m α)) : dumpU F ds = csv F (ds.map fun d => (d.t, List.ofFn d.u)) := by
  unfold dumpU csv
  rw [List.flatMap_map]
  rfl

theorem dumpErr_eq (ds : List (Cgmres.Dump n m α)) : dumpErr F ds = csv F (ds.map fun d => (d.t, [d.err])) := by
  unfold dumpErr csv
  rw [List.flatMap_map]
  apply List.flatMap_congr
  intro d _
  simp [fmtVec, pad]

/-- Two-dimensional arrays. -/
theorem squeeze_table {β : Type} {rows : List (List β)} {k : ℕ} (hk : 2 ≤ k) (h : 2 ≤ rows.length) (hl : ∀ r ∈ rows, r.length = k) :
    squeeze rows = .table rows := by
  match rows, h with
  | a :: b :: rows, _ =>
    have : squeeze (a :: b :: rows) = if (a :: b :: rows).all fun r => r.length = 1 then .flat (a :: b :: rows).flatten
        else .table (a :: b :: rows) := by
      cases a with
      | nil => rfl
      | cons v a => cases a <;> rfl
    rw [this, if_neg]
    intro hc
    rw [List.all_eq_true] at hc
    have h1 := hc a (by simp)
    have h2 := hl a (by simp)
    simp only [decide_eq_true_eq] at h1
    omega

theorem col_map {β γ : Type} {rows : List γ} {f : γ → List β} {j : ℕ} {g : γ → β} (h : ∀ r, (f r)[j]? = some (g r)) :
    (Arr.table (rows.map f)).col j = some (rows.map g) := by
  unfold Arr.col
  dsimp only
  induction rows with
  | nil => rfl
  | cons r rows ih => rw [List.map_cons, List.mapM_cons, h, ih]; rfl

/-- The column `j` of the array loaded from a text. -/
def loadedCol (F : NumFmt α) (text : Str) (j : ℕ) : Option (List (Option α)) := (loadData F text).bind fun a => a.col j

theorem loadedCol_csv (hF : F.Ok) {β : Type} {ds : List β} {t : β → α} {k : ℕ} {x : β → Vec k α} (hk : 0 < k) (h2 : 2 ≤ ds.length) :
    loadedCol F (csv F (ds.map fun d => (t d, List.ofFn (x d)))) 0 = some (ds.map fun d => some (F.round (t d))) ∧
    ∀ i : Fin k, loadedCol F (csv F (ds.map fun d => (t d, List.ofFn (x d)))) (i + 1) = some (ds.map fun d => some (F.round (x d i))) := by
  have h0 : ds ≠ [] := by rintro rfl; simp at h2
  have := loadData_csv hF (rows := ds.map fun d => (t d, List.ofFn (x d))) hk (by
    intro r hr
    obtain ⟨d, _, rfl⟩ := List.mem_map.1 hr
    simp) (by simpa using h0)
  rw [List.map_map] at this
  unfold loadedCol
  rw [this, squeeze_table (k := k + 1) (by omega) (by simpa using h2)]
  · refine ⟨?_, fun i => ?_⟩
    · rw [Option.bind_some]
      exact col_map fun d => rfl
    · rw [Option.bind_some]
      apply col_map
      intro d
      simp
  · intro r hr
    obtain ⟨d, _, rfl⟩ := List.mem_map.1 hr
    simp

/-- **C78** The files written by `CgmresSolver::run` are read back by plotCgmresData.py if there are at least two lines: the first column
of each array is the time, the others the coefficients of the state, of the input and the norm of the residual, up to rounding; the
blanks Eigen inserts to align the columns do no harm. -/
theorem C78_columns (hF : F.Ok) (hn : 0 < n) (hm : 0 < m) {ds : List (Cgmres.Dump n m α)} (h2 : 2 ≤ ds.length) :
    (loadedCol F (dumpX F ds) 0 = some (ds.map fun d => some (F.round d.t)) ∧
      ∀ i : Fin n, loadedCol F (dumpX F ds) (i + 1) = some (ds.map fun d => some (F.round (d.x i)))) ∧
    (loadedCol F (dumpU F ds) 0 = some (ds.map fun d => some (F.round d.t)) ∧
      ∀ i : Fin m, loadedCol F (dumpU F ds) (i + 1) = some (ds.map fun d => some (F.round (d.u i)))) ∧
    (loadedCol F (dumpErr F ds) 0 = some (ds.map fun d => some (F.round d.t)) ∧
      loadedCol F (dumpErr F ds) 1 = some (ds.map fun d => some (F.round d.err))) := by
  refine ⟨?_, ?_, ?_⟩
  · rw [dumpX_eq]; exact loadedCol_csv hF hn h2
  · rw [dumpU_eq]; exact loadedCol_csv hF hm h2
  · rw [dumpErr_eq]
    have := loadedCol_csv hF (t := Cgmres.Dump.t) (x := fun d : Cgmres.Dump n m α => fun _ : Fin 1 => d.err) (by norm_num) h2
    exact ⟨this.1, this.2 0⟩

/-- **C78** With a single line `genfromtxt` returns a one-dimensional array, and the script fails on `x_traj.shape[1]`; with no line it
fails as well. -/
theorem C78_short (hF : F.Ok) (hn : 0 < n) {ds : List (Cgmres.Dump n m α)} (h : ds.length < 2) (j : ℕ) :
    loadedCol F (dumpX F ds) j = none ∧ loadedCol F (dumpErr F ds) j = none := by
  match ds, h with
  | [], _ => exact ⟨rfl, rfl⟩
  | [d], _ =>
    have key : ∀ (t : α) (l : List α), l ≠ [] → loadedCol F (csv F [(t, l)]) j = none := by
      intro t l hl
      have := loadData_csv hF (rows := [(t, l)]) (k := l.length) (List.length_pos_of_ne_nil hl) (by simp) (by simp)
      unfold loadedCol
      rw [this]
      match l, hl with
      | a :: l, _ => rfl
    rw [dumpX_eq, dumpErr_eq]
    refine ⟨key _ _ ?_, key _ _ (by simp)⟩
    intro h0
    have := congrArg List.length h0
    simp at this
    omega

section Run
open Cgmres

variable {L : Gmres.Dense ℝ} {P : Problem n m ℝ} {ode simOde : Ode ℝ} {cfg : Config ℝ} {F : NumFmt ℝ}

/-- The rounds that are dumped. -/
theorem dumped_two {d : ℤ} {k : ℕ} (hd : 0 < d) (h : d < k) : 2 ≤ ((List.range k).filter fun j : ℕ => decide (d ∣ (j : ℤ))).length := by
  have h0 : (0 : ℕ) ∈ (List.range k).filter fun j : ℕ => decide (d ∣ (j : ℤ)) := by
    simp only [List.mem_filter, List.mem_range, decide_eq_true_eq]
    exact ⟨by omega, by simp⟩
  have h1 : d.toNat ∈ (List.range k).filter fun j : ℕ => decide (d ∣ (j : ℤ)) := by
    simp only [List.mem_filter, List.mem_range, decide_eq_true_eq]
    exact ⟨by omega, by rw [Int.toNat_of_nonneg hd.le]⟩
  refine le_trans ?_ (List.toFinset_card_le _)
  rw [← Finset.card_pair (show (0 : ℕ) ≠ d.toNat by omega)]
  apply Finset.card_le_card
  intro j hj
  rw [Finset.mem_insert, Finset.mem_singleton] at hj
  rcases hj with rfl | rfl
  · exact List.mem_toFinset.2 h0
  · exact List.mem_toFinset.2 h1

theorem dumped_one {d : ℤ} {k : ℕ} (h : (k : ℤ) ≤ d) : ((List.range k).filter fun j : ℕ => decide (d ∣ (j : ℤ))).length < 2 := by
  by_contra hc
  have hc : 1 < ((List.range k).filter fun j : ℕ => decide (d ∣ (j : ℤ))).toFinset.card := by
    rw [List.toFinset_card_of_nodup (List.Nodup.filter _ List.nodup_range)]
    omega
  obtain ⟨a, ha, b, hb, hab⟩ := Finset.one_lt_card.1 hc
  have key : ∀ a, a ∈ ((List.range k).filter fun j : ℕ => decide (d ∣ (j : ℤ))).toFinset → a = 0 := by
    intro a ha
    simp only [List.mem_toFinset, List.mem_filter, List.mem_range, decide_eq_true_eq] at ha
    have := Int.eq_zero_of_dvd_of_nonneg_of_lt (by omega) (by omega) ha.2
    omega
  exact hab ((key a ha).trans (key b hb).symm)

/-- **C78** After a run with a positive time step over at least `dump_step` steps the script finds in the first column the times of the
dumped rounds, in the others the states reached and the inputs computed in them and the residuals before; if the duration is shorter
than `dump_step` steps the file has one line (or none) and the script fails. -/
theorem C78_run (hF : F.Ok) (hn : 0 < n) (hm : 0 < m) (hdt : 0 < cfg.dt) (hd : 0 < cfg.dumpStep) (hN : 0 < cfg.divideNum)
    (hk : 0 ≤ cfg.kMax) :
    ∃ (T : Trajectory L P ode simOde cfg cfg.divideNum.toNat) (s : _) (ks : List ℕ), run L P ode simOde cfg = .ok s ∧
      ks = ((List.range (⌊cfg.simDuration / cfg.dt⌋ + 1).toNat).filter fun j : ℕ => cfg.dumpStep ∣ (j : ℤ)) ∧
      (cfg.dumpStep * cfg.dt ≤ cfg.simDuration →
        (loadedCol F (dumpX F s.dump) 0 = some (ks.map fun k : ℕ => some (F.round (k * cfg.dt))) ∧
          ∀ i : Fin n, loadedCol F (dumpX F s.dump) (i + 1) = some (ks.map fun k => some (F.round (T.x (k + 1) i)))) ∧
        (loadedCol F (dumpU F s.dump) 0 = some (ks.map fun k : ℕ => some (F.round (k * cfg.dt))) ∧
          ∀ i : Fin m, loadedCol F (dumpU F s.dump) (i + 1) = some (ks.map fun k => some (F.round (T.u (k + 1) i)))) ∧
        (loadedCol F (dumpErr F s.dump) 0 = some (ks.map fun k : ℕ => some (F.round (k * cfg.dt))) ∧
          loadedCol F (dumpErr F s.dump) 1 = some (ks.map fun k : ℕ => some (F.round
            (Gmres.norm2 (flatten (dhduList P ode cfg (k * cfg.dt) (T.x k) (T.mem k).uList))))))) ∧
      (cfg.simDuration < cfg.dumpStep * cfg.dt → ∀ j, loadedCol F (dumpX F s.dump) j = none ∧ loadedCol F (dumpErr F s.dump) j = none) := by
  obtain ⟨T, s, hs, hi, -, -, -, -, hdump⟩ := C54_run L P ode simOde cfg hdt hd.ne' hN hk
  have hi' : s.i = (⌊cfg.simDuration / cfg.dt⌋ + 1).toNat := by omega
  refine ⟨T, s, _, hs, rfl, fun hlong => ?_, fun hshort j => ?_⟩
  · have h2 : 2 ≤ s.dump.length := by
      rw [hdump, List.length_map]
      apply dumped_two hd
      have : cfg.dumpStep ≤ ⌊cfg.simDuration / cfg.dt⌋ := by
        rw [Int.le_floor, le_div_iff₀ hdt]
        exact hlong
      omega
    have := C78_columns hF hn hm h2
    rw [hdump, hi'] at this ⊢
    simp only [List.map_map] at this
    exact this
  · apply C78_short hF hn
    rw [hdump, List.length_map]
    apply dumped_one
    have : ⌊cfg.simDuration / cfg.dt⌋ < cfg.dumpStep := by
      rw [Int.floor_lt, div_lt_iff₀ hdt]
      exact hshort
    omega

end Run

/-- Two lines with coefficients of different width. -/
example : dumpX (⟨printNat, readNat, id⟩ : NumFmt ℕ) [(⟨0, ![7, 100], ![1], 5⟩ : Cgmres.Dump 2 1 ℕ), ⟨1, ![42, 8], ![1], 5⟩] =
    "0,   7, 100\n1, 42,  8\n".toList := by
  decide

end Nmpc.Text
