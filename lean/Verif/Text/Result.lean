import Verif.Text.Trace

/-!
# The result files of the tests and their readers (C79)
-/

namespace Nmpc.Text

variable {α : Type} {F : NumFmt α}

/-- Names and rows of a file of lines of padded vectors, split into words. -/
theorem readNamed_rows {header : Str} {names : List Str} (hh : header.all fun c => c ≠ '\n' ∧ c ≠ '\r' ∧ c ≠ '#')
    (hw : words header = names) (hn : names ≠ []) {rows : List (List (List Str))} (hl : ∀ r ∈ rows, r.flatten.length = names.length)
    (h : ∀ r ∈ rows, ∀ c ∈ r, ∀ t ∈ c, Clean t) :
    readNamed none (header ++ ['\n'] ++ rows.flatMap row) = some (names.map fixName, rows.map List.flatten) := by
  have hrow : ∀ r ∈ rows, ∀ c ∈ [' '].intercalate (r.map (fmtVec [' '])), c = ' ' ∨ c ∉ special := by
    intro r hr c hc
    rcases mem_intercalate hc with hc | ⟨s, hs, hc⟩
    · exact .inl (by simpa using hc)
    · obtain ⟨q, hq, rfl⟩ := List.mem_map.1 hs
      rcases mem_intercalate hc with hc | ⟨s, hs, hc⟩
      · exact .inl (by simpa using hc)
      · obtain ⟨t, ht, rfl⟩ := List.mem_map.1 hs
        unfold pad at hc
        rw [List.mem_append, List.mem_replicate] at hc
        rcases hc with ⟨_, hc⟩ | hc
        · exact .inl hc
        · exact .inr ((h r hr q hq t ht).chars c hc)
  have hno : ∀ r ∈ rows, ∀ c ∈ special, c ≠ ' ' → c ∉ [' '].intercalate (r.map (fmtVec [' '])) := by
    intro r hr c hc hb hm
    rcases hrow r hr c hm with h' | h'
    · exact hb h'
    · exact h' hc
  rw [List.all_eq_true] at hh
  have hh' : '\n' ∉ header ∧ '\r' ∉ header ∧ '#' ∉ header :=
    ⟨fun hc => by simpa using hh _ hc, fun hc => by simpa using hh _ hc, fun hc => by simpa using hh _ hc⟩
  have hsl : ∀ r ∈ rows, splitLine none ([' '].intercalate (r.map (fmtVec [' ']))) = r.flatten := by
    intro r hr
    rw [splitLine_words (hno r hr _ (by decide) (by decide)) (hno r hr _ (by decide) (by decide)) (hno r hr _ (by decide) (by decide)),
      words_row (h r hr)]
  have hsh : splitLine none header = names := by
    rw [splitLine_words hh'.1 hh'.2.1 hh'.2.2, hw]
  have hne : ∀ r ∈ rows, r.flatten ≠ [] := by
    intro r hr h0
    have := hl r hr
    rw [h0, List.length_nil, eq_comm, List.length_eq_zero_iff] at this
    exact hn this
  have := valueLines_lines (delim := none) (ls := header :: rows.map fun r => [' '].intercalate (r.map (fmtVec [' ']))) (by
      intro l hl
      rcases List.mem_cons.1 hl with rfl | hl
      · exact hh'.1
      · obtain ⟨r, hr, rfl⟩ := List.mem_map.1 hl
        exact hno r hr _ (by decide) (by decide)) (by
      intro l hl
      rcases List.mem_cons.1 hl with rfl | hl
      · rw [hsh]; exact hn
      · obtain ⟨r, hr, rfl⟩ := List.mem_map.1 hl
        rw [hsl r hr]; exact hne r hr)
  rw [List.flatMap_cons, List.flatMap_map, List.map_cons, List.map_map, hsh] at this
  unfold readNamed
  have ht : header ++ ['\n'] ++ rows.flatMap row =
      header ++ ['\n'] ++ rows.flatMap fun r => [' '].intercalate (r.map (fmtVec [' '])) ++ ['\n'] := rfl
  rw [ht, this]
  dsimp only
  have hm : rows.map (splitLine none ∘ fun r => [' '].intercalate (r.map (fmtVec [' ']))) = rows.map List.flatten :=
    List.map_congr_left hsl
  rw [hm, if_pos]
  rw [List.all_eq_true]
  intro q hq
  obtain ⟨r, hr, rfl⟩ := List.mem_map.1 hq
  simpa using hl r hr

theorem tokens_clean (hF : F.Ok) {n : ℕ} (x : Vec n α) : ∀ t ∈ tokens F x, Clean t := by
  intro t ht
  obtain ⟨v, _, rfl⟩ := List.mem_map.1 ht
  exact clean_print hF v

theorem single_clean {s : Str} (h : Clean s) : ∀ t ∈ [s], Clean t := by
  intro t ht
  rw [List.mem_singleton] at ht
  exact ht ▸ h

/-- Names of the columns of the bipedal result. -/
def namesBipedal : List Str :=
  ["time".toList, "com_pos".toList, "com_vel".toList, "planned_zmp".toList, "ref_zmp".toList, "omega2".toList, "iter".toList]

/-- **C79** plotTestDDPBipedal.py reads the result of the bipedal test: under every name it uses it finds the values the name says,
`omega^2` under `omega2`. -/
theorem C79_bipedal (hF : F.Ok) (ls : List (BipedalRow α)) :
    ∃ t, readNamed none (resultBipedal F ls) = some t ∧ t.1.length = 7 ∧ t.1.Nodup ∧ t.2.length = ls.length ∧
      HasColumn F t ls "time" BipedalRow.t ∧ HasColumn F t ls "com_pos" (fun l => l.x 0) ∧ HasColumn F t ls "com_vel" (fun l => l.x 1) ∧
      HasColumn F t ls "planned_zmp" BipedalRow.zmp ∧ HasColumn F t ls "ref_zmp" BipedalRow.refZmp ∧
      HasColumn F t ls "omega2" BipedalRow.omega2 ∧ HasNatColumn t ls "iter" BipedalRow.iter := by
  have h : readNamed none (resultBipedal F ls) = some (namesBipedal, ls.map fun l =>
      [F.print l.t, F.print (l.x 0), F.print (l.x 1), F.print l.zmp, F.print l.refZmp, F.print l.omega2, printNat l.iter]) := by
    have := readNamed_rows (header := "time com_pos com_vel planned_zmp ref_zmp omega^2 iter".toList) (by decide) rfl (by decide)
      (rows := ls.map fun l => [[F.print l.t], tokens F l.x, [F.print l.zmp], [F.print l.refZmp], [F.print l.omega2], [printNat l.iter]])
      (by
        intro r hr
        obtain ⟨l, _, rfl⟩ := List.mem_map.1 hr
        simp [tokens]
        decide) (by
        intro r hr
        obtain ⟨l, _, rfl⟩ := List.mem_map.1 hr
        simp only [List.forall_mem_cons, List.not_mem_nil, false_imp_iff, implies_true, and_true]
        exact ⟨clean_print hF _, tokens_clean hF _, clean_print hF _, clean_print hF _, clean_print hF _, clean_printNat _⟩)
    rw [List.flatMap_map, List.map_map] at this
    have hnames : (words "time com_pos com_vel planned_zmp ref_zmp omega^2 iter".toList).map fixName = namesBipedal := by decide
    rw [hnames] at this
    exact this
  refine ⟨_, h, rfl, (by decide : namesBipedal.Nodup), by simp, ?_, ?_, ?_, ?_, ?_, ?_, ?_⟩
  · exact hasColumn hF (j := 0) (by decide) (fun _ => rfl) _
  · exact hasColumn hF (j := 1) (by decide) (fun _ => rfl) _
  · exact hasColumn hF (j := 2) (by decide) (fun _ => rfl) _
  · exact hasColumn hF (j := 3) (by decide) (fun _ => rfl) _
  · exact hasColumn hF (j := 4) (by decide) (fun _ => rfl) _
  · exact hasColumn hF (j := 5) (by decide) (fun _ => rfl) _
  · exact hasNatColumn (j := 6) (by decide) (fun _ => rfl) _

/-- Names of the columns of `resultVertical`. -/
def namesVertical : List Str :=
  ["time".toList, "pos".toList, "vel".toList, "force".toList, "ref_pos".toList, "num_contact".toList, "iter".toList]

/-- **C79** plotTestDDPVerticalMotion.py reads the result of the vertical motion test. -/
theorem C79_vertical (hF : F.Ok) (ls : List (VerticalRow α)) :
    ∃ t, readNamed none (resultVertical F ls) = some t ∧ t.1.length = 7 ∧ t.1.Nodup ∧ t.2.length = ls.length ∧
      HasColumn F t ls "time" (fun l => l.t) ∧
      HasColumn F t ls "pos" (fun l => l.x 0) ∧
      HasColumn F t ls "vel" (fun l => l.x 1) ∧
      HasColumn F t ls "force" (fun l => l.force) ∧
      HasColumn F t ls "ref_pos" (fun l => l.refPos) ∧
      HasNatColumn t ls "num_contact" (fun l => l.contacts) ∧
      HasNatColumn t ls "iter" (fun l => l.iter) := by
  have h : readNamed none (resultVertical F ls) = some (namesVertical, ls.map fun l =>
      [F.print l.t, F.print (l.x 0), F.print (l.x 1), F.print l.force, F.print l.refPos, printNat l.contacts, printNat l.iter]) := by
    have := readNamed_rows (header := "time pos vel force ref_pos num_contact iter".toList) (by decide) rfl (by decide)
      (rows := ls.map fun l => [[F.print l.t], tokens F l.x, [F.print l.force], [F.print l.refPos], [printNat l.contacts], [printNat l.iter]])
      (by
        intro r hr
        obtain ⟨l, _, rfl⟩ := List.mem_map.1 hr
        simp [tokens]
        decide) (by
        intro r hr
        obtain ⟨l, _, rfl⟩ := List.mem_map.1 hr
        simp only [List.forall_mem_cons, List.not_mem_nil, false_imp_iff, implies_true, and_true]
        exact ⟨clean_print hF _, tokens_clean hF _, clean_print hF _, clean_print hF _, clean_printNat _, clean_printNat _⟩)
    rw [List.flatMap_map, List.map_map] at this
    have hnames : (words ("time pos vel force ref_pos num_contact iter".toList)).map fixName = namesVertical := by decide
    rw [hnames] at this
    exact this
  refine ⟨_, h, rfl, (by decide : namesVertical.Nodup), by simp, ?_, ?_, ?_, ?_, ?_, ?_, ?_⟩
  · exact hasColumn hF (j := 0) (by decide) (fun _ => rfl) _
  · exact hasColumn hF (j := 1) (by decide) (fun _ => rfl) _
  · exact hasColumn hF (j := 2) (by decide) (fun _ => rfl) _
  · exact hasColumn hF (j := 3) (by decide) (fun _ => rfl) _
  · exact hasColumn hF (j := 4) (by decide) (fun _ => rfl) _
  · exact hasNatColumn (j := 5) (by decide) (fun _ => rfl) _
  · exact hasNatColumn (j := 6) (by decide) (fun _ => rfl) _

/-- Names of the columns of `resultCartPole`. -/
def namesCartPole : List Str :=
  ["time".toList, "pos".toList, "theta".toList, "vel".toList, "omega".toList, "force".toList, "ref_pos".toList,
   "disturbance".toList]

/-- **C79** The columns of the results of the cart-pole simulations are those the header says. -/
theorem C79_cartpole (hF : F.Ok) (ls : List (CartPoleRow α)) :
    ∃ t, readNamed none (resultCartPole F ls) = some t ∧ t.1.length = 8 ∧ t.1.Nodup ∧ t.2.length = ls.length ∧
      HasColumn F t ls "time" (fun l => l.t) ∧
      HasColumn F t ls "pos" (fun l => l.x 0) ∧
      HasColumn F t ls "theta" (fun l => l.x 1) ∧
      HasColumn F t ls "vel" (fun l => l.x 2) ∧
      HasColumn F t ls "omega" (fun l => l.x 3) ∧
      HasColumn F t ls "force" (fun l => l.u 0) ∧
      HasColumn F t ls "ref_pos" (fun l => l.refPos) ∧
      HasColumn F t ls "disturbance" (fun l => l.dist 0) := by
  have h : readNamed none (resultCartPole F ls) = some (namesCartPole, ls.map fun l =>
      [F.print l.t, F.print (l.x 0), F.print (l.x 1), F.print (l.x 2), F.print (l.x 3), F.print (l.u 0), F.print l.refPos, F.print (l.dist 0)]) := by
    have := readNamed_rows (header := "time pos theta vel omega force ref_pos disturbance".toList) (by decide) rfl (by decide)
      (rows := ls.map fun l => [[F.print l.t], tokens F l.x, tokens F l.u, [F.print l.refPos], tokens F l.dist])
      (by
        intro r hr
        obtain ⟨l, _, rfl⟩ := List.mem_map.1 hr
        simp [tokens]
        decide) (by
        intro r hr
        obtain ⟨l, _, rfl⟩ := List.mem_map.1 hr
        simp only [List.forall_mem_cons, List.not_mem_nil, false_imp_iff, implies_true, and_true]
        exact ⟨clean_print hF _, tokens_clean hF _, tokens_clean hF _, clean_print hF _, tokens_clean hF _⟩)
    rw [List.flatMap_map, List.map_map] at this
    have hnames : (words ("time pos theta vel omega force ref_pos disturbance".toList)).map fixName = namesCartPole := by decide
    rw [hnames] at this
    exact this
  refine ⟨_, h, rfl, (by decide : namesCartPole.Nodup), by simp, ?_, ?_, ?_, ?_, ?_, ?_, ?_, ?_⟩
  · exact hasColumn hF (j := 0) (by decide) (fun _ => rfl) _
  · exact hasColumn hF (j := 1) (by decide) (fun _ => rfl) _
  · exact hasColumn hF (j := 2) (by decide) (fun _ => rfl) _
  · exact hasColumn hF (j := 3) (by decide) (fun _ => rfl) _
  · exact hasColumn hF (j := 4) (by decide) (fun _ => rfl) _
  · exact hasColumn hF (j := 5) (by decide) (fun _ => rfl) _
  · exact hasColumn hF (j := 6) (by decide) (fun _ => rfl) _
  · exact hasColumn hF (j := 7) (by decide) (fun _ => rfl) _

/-- Names of the columns of `resultOscillator`. -/
def namesOscillator : List Str :=
  ["time".toList, "x0".toList, "x1".toList, "u0".toList, "mpc_iter".toList, "computation_time".toList, "kkt_error".toList]

/-- **C79** The columns of the result of the oscillator test are those the header says. -/
theorem C79_oscillator (hF : F.Ok) (ls : List (OscillatorRow α)) :
    ∃ t, readNamed none (resultOscillator F ls) = some t ∧ t.1.length = 7 ∧ t.1.Nodup ∧ t.2.length = ls.length ∧
      HasColumn F t ls "time" (fun l => l.t) ∧
      HasColumn F t ls "x0" (fun l => l.x 0) ∧
      HasColumn F t ls "x1" (fun l => l.x 1) ∧
      HasColumn F t ls "u0" (fun l => l.u 0) ∧
      HasNatColumn t ls "mpc_iter" (fun l => l.iter) ∧
      HasColumn F t ls "computation_time" (fun l => l.duration) ∧
      HasColumn F t ls "kkt_error" (fun l => l.kktError) := by
  have h : readNamed none (resultOscillator F ls) = some (namesOscillator, ls.map fun l =>
      [F.print l.t, F.print (l.x 0), F.print (l.x 1), F.print (l.u 0), printNat l.iter, F.print l.duration, F.print l.kktError]) := by
    have := readNamed_rows (header := "time x[0] x[1] u[0] mpc_iter computation_time kkt_error".toList) (by decide) rfl (by decide)
      (rows := ls.map fun l => [[F.print l.t], tokens F l.x, tokens F l.u, [printNat l.iter], [F.print l.duration], [F.print l.kktError]])
      (by
        intro r hr
        obtain ⟨l, _, rfl⟩ := List.mem_map.1 hr
        simp [tokens]
        decide) (by
        intro r hr
        obtain ⟨l, _, rfl⟩ := List.mem_map.1 hr
        simp only [List.forall_mem_cons, List.not_mem_nil, false_imp_iff, implies_true, and_true]
        exact ⟨clean_print hF _, tokens_clean hF _, tokens_clean hF _, clean_printNat _, clean_print hF _, clean_print hF _⟩)
    rw [List.flatMap_map, List.map_map] at this
    have hnames : (words ("time x[0] x[1] u[0] mpc_iter computation_time kkt_error".toList)).map fixName = namesOscillator := by decide
    rw [hnames] at this
    exact this
  refine ⟨_, h, rfl, (by decide : namesOscillator.Nodup), by simp, ?_, ?_, ?_, ?_, ?_, ?_, ?_⟩
  · exact hasColumn hF (j := 0) (by decide) (fun _ => rfl) _
  · exact hasColumn hF (j := 1) (by decide) (fun _ => rfl) _
  · exact hasColumn hF (j := 2) (by decide) (fun _ => rfl) _
  · exact hasColumn hF (j := 3) (by decide) (fun _ => rfl) _
  · exact hasNatColumn (j := 4) (by decide) (fun _ => rfl) _
  · exact hasColumn hF (j := 5) (by decide) (fun _ => rfl) _
  · exact hasColumn hF (j := 6) (by decide) (fun _ => rfl) _

/-- Names of the columns of `resultCentroidal`. -/
def namesCentroidal : List Str :=
  ["time".toList, "pos_x".toList, "pos_y".toList, "pos_z".toList, "linear_momentum_x".toList, "linear_momentum_y".toList,
   "linear_momentum_z".toList, "angular_momentum_x".toList, "angular_momentum_y".toList, "angular_momentum_z".toList,
   "force_x".toList, "force_y".toList, "force_z".toList, "ref_pos_x".toList, "ref_pos_y".toList, "ref_pos_z".toList,
   "iter".toList, "duration_setup".toList, "duration_opt".toList, "duration_derivative".toList, "duration_backward".toList,
   "duration_forward".toList, "duration_Q".toList, "duration_reg".toList, "duration_gain".toList]

/-- The words of one line. -/
def wordsCentroidal (F : NumFmt α) (l : CentroidalRow α) : List Str :=
  [F.print l.t, F.print (l.x 0), F.print (l.x 1), F.print (l.x 2), F.print (l.x 3), F.print (l.x 4), F.print (l.x 5),
   F.print (l.x 6), F.print (l.x 7), F.print (l.x 8), F.print (l.force 0), F.print (l.force 1), F.print (l.force 2),
   F.print (l.refPos 0), F.print (l.refPos 1), F.print (l.refPos 2), printNat l.iter, F.print (l.durations 0),
   F.print (l.durations 1), F.print (l.durations 2), F.print (l.durations 3), F.print (l.durations 4),
   F.print (l.durations 5), F.print (l.durations 6), F.print (l.durations 7)]

theorem cellsCentroidal_flatten (l : CentroidalRow α) : (cellsCentroidal F l).flatten = wordsCentroidal F l := by
  simp [cellsCentroidal, wordsCentroidal, tokens, List.ofFn_succ]

set_option maxRecDepth 8000 in
theorem readCentroidal (hF : F.Ok) (ls : List (CentroidalRow α)) :
    readNamed none (resultCentroidal F ls) = some (namesCentroidal, ls.map (wordsCentroidal F)) := by
  have hlen : (words headerCentroidal).length = 25 := by decide +kernel
  have := readNamed_rows (header := headerCentroidal) (by decide +kernel) rfl (by decide +kernel) (rows := ls.map (cellsCentroidal F)) (by
      intro r hr
      obtain ⟨l, _, rfl⟩ := List.mem_map.1 hr
      rw [cellsCentroidal_flatten, hlen]
      rfl) (by
      intro r hr
      obtain ⟨l, _, rfl⟩ := List.mem_map.1 hr
      unfold cellsCentroidal
      simp only [List.cons_append, List.nil_append, List.forall_mem_cons, List.not_mem_nil, false_imp_iff, implies_true, and_true]
      refine ⟨clean_print hF _, tokens_clean hF _, tokens_clean hF _, tokens_clean hF _, clean_printNat _, ?_⟩
      intro c hc t ht
      obtain ⟨q, hq, rfl⟩ := List.mem_map.1 hc
      rw [List.mem_singleton] at ht
      exact ht ▸ tokens_clean hF _ q hq)
  have hnames : (words headerCentroidal).map fixName = namesCentroidal := by decide +kernel
  rw [List.flatMap_map, List.map_map, hnames] at this
  have hw : ls.map (List.flatten ∘ cellsCentroidal F) = ls.map (wordsCentroidal F) :=
    List.map_congr_left fun l _ => cellsCentroidal_flatten l
  rw [hw] at this
  exact this

set_option maxRecDepth 8000 in
/-- **C79** The columns of the result of the centroidal motion test are those the header says (the order of the eight durations is that of
the model). -/
theorem C79_centroidal (hF : F.Ok) (ls : List (CentroidalRow α)) :
    ∃ t, readNamed none (resultCentroidal F ls) = some t ∧ t.1.length = 25 ∧ t.1.Nodup ∧ t.2.length = ls.length ∧
      HasColumn F t ls "time" (fun l => l.t) ∧
      HasColumn F t ls "pos_x" (fun l => l.x 0) ∧
      HasColumn F t ls "pos_y" (fun l => l.x 1) ∧
      HasColumn F t ls "pos_z" (fun l => l.x 2) ∧
      HasColumn F t ls "linear_momentum_x" (fun l => l.x 3) ∧
      HasColumn F t ls "linear_momentum_y" (fun l => l.x 4) ∧
      HasColumn F t ls "linear_momentum_z" (fun l => l.x 5) ∧
      HasColumn F t ls "angular_momentum_x" (fun l => l.x 6) ∧
      HasColumn F t ls "angular_momentum_y" (fun l => l.x 7) ∧
      HasColumn F t ls "angular_momentum_z" (fun l => l.x 8) ∧
      HasColumn F t ls "force_x" (fun l => l.force 0) ∧
      HasColumn F t ls "force_y" (fun l => l.force 1) ∧
      HasColumn F t ls "force_z" (fun l => l.force 2) ∧
      HasColumn F t ls "ref_pos_x" (fun l => l.refPos 0) ∧
      HasColumn F t ls "ref_pos_y" (fun l => l.refPos 1) ∧
      HasColumn F t ls "ref_pos_z" (fun l => l.refPos 2) ∧
      HasNatColumn t ls "iter" (fun l => l.iter) ∧
      HasColumn F t ls "duration_setup" (fun l => l.durations 0) ∧
      HasColumn F t ls "duration_opt" (fun l => l.durations 1) ∧
      HasColumn F t ls "duration_derivative" (fun l => l.durations 2) ∧
      HasColumn F t ls "duration_backward" (fun l => l.durations 3) ∧
      HasColumn F t ls "duration_forward" (fun l => l.durations 4) ∧
      HasColumn F t ls "duration_Q" (fun l => l.durations 5) ∧
      HasColumn F t ls "duration_reg" (fun l => l.durations 6) ∧
      HasColumn F t ls "duration_gain" (fun l => l.durations 7) := by
  refine ⟨_, readCentroidal hF ls, rfl, (by decide +kernel : namesCentroidal.Nodup), by simp, ?_, ?_, ?_, ?_, ?_, ?_, ?_, ?_, ?_, ?_, ?_, ?_, ?_, ?_, ?_, ?_, ?_, ?_, ?_, ?_, ?_, ?_, ?_, ?_, ?_⟩
  · exact hasColumn hF (j := 0) (by decide +kernel) (fun _ => rfl) _
  · exact hasColumn hF (j := 1) (by decide +kernel) (fun _ => rfl) _
  · exact hasColumn hF (j := 2) (by decide +kernel) (fun _ => rfl) _
  · exact hasColumn hF (j := 3) (by decide +kernel) (fun _ => rfl) _
  · exact hasColumn hF (j := 4) (by decide +kernel) (fun _ => rfl) _
  · exact hasColumn hF (j := 5) (by decide +kernel) (fun _ => rfl) _
  · exact hasColumn hF (j := 6) (by decide +kernel) (fun _ => rfl) _
  · exact hasColumn hF (j := 7) (by decide +kernel) (fun _ => rfl) _
  · exact hasColumn hF (j := 8) (by decide +kernel) (fun _ => rfl) _
  · exact hasColumn hF (j := 9) (by decide +kernel) (fun _ => rfl) _
  · exact hasColumn hF (j := 10) (by decide +kernel) (fun _ => rfl) _
  · exact hasColumn hF (j := 11) (by decide +kernel) (fun _ => rfl) _
  · exact hasColumn hF (j := 12) (by decide +kernel) (fun _ => rfl) _
  · exact hasColumn hF (j := 13) (by decide +kernel) (fun _ => rfl) _
  · exact hasColumn hF (j := 14) (by decide +kernel) (fun _ => rfl) _
  · exact hasColumn hF (j := 15) (by decide +kernel) (fun _ => rfl) _
  · exact hasNatColumn (j := 16) (by decide +kernel) (fun _ => rfl) _
  · exact hasColumn hF (j := 17) (by decide +kernel) (fun _ => rfl) _
  · exact hasColumn hF (j := 18) (by decide +kernel) (fun _ => rfl) _
  · exact hasColumn hF (j := 19) (by decide +kernel) (fun _ => rfl) _
  · exact hasColumn hF (j := 20) (by decide +kernel) (fun _ => rfl) _
  · exact hasColumn hF (j := 21) (by decide +kernel) (fun _ => rfl) _
  · exact hasColumn hF (j := 22) (by decide +kernel) (fun _ => rfl) _
  · exact hasColumn hF (j := 23) (by decide +kernel) (fun _ => rfl) _
  · exact hasColumn hF (j := 24) (by decide +kernel) (fun _ => rfl) _

/-- **C79** A reader that splits at single blanks (as plotDDPTraceData.py does for the trace files) fails on the result files: Eigen's
padding looks like further columns. -/
theorem C79_single_blank : ∃ ls : List (BipedalRow ℕ), readNamed (some ' ') (resultBipedal natFmt ls) = none :=
  ⟨[⟨0, ![1, 10], 0, 0, 9, 1⟩], by decide⟩

/-- The text of this file, and one column as the script reads it. -/
example : resultBipedal natFmt [⟨0, ![1, 10], 0, 0, 9, 1⟩] =
    ("time com_pos com_vel planned_zmp ref_zmp omega^2 iter\n" ++ "0  1 10 0 0 9 1\n").toList := by
  decide

example : (readNamed none (resultBipedal natFmt [⟨0, ![1, 10], 0, 0, 9, 1⟩])).bind (column "omega2".toList) = some ["9".toList] := by
  decide

end Nmpc.Text
