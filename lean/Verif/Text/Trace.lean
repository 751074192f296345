import Verif.Text.Lemmas
import Verif.DDP.Props
import Verif.FMPC.Generic

/-!
# Round trip of the trace files (C77)
-/

namespace Nmpc.Text

variable {α : Type} {F : NumFmt α}

/-- Names and rows of a table written with single blanks. -/
theorem readNamed_tokens {names : List Str} {rows : List (List Str)} (hn : names ≠ []) (hc : ∀ t ∈ names, Clean t)
    (hl : ∀ r ∈ rows, r.length = names.length) (h : ∀ r ∈ rows, ∀ t ∈ r, Clean t) :
    readNamed (some ' ') ((names :: rows).flatMap fun r => [' '].intercalate r ++ ['\n']) = some (names.map fixName, rows) := by
  unfold readNamed
  rw [valueLines_tokens]
  · dsimp only
    rw [if_pos]
    simpa using hl
  · intro r hr
    rcases List.mem_cons.1 hr with rfl | hr
    · exact hn
    · intro h0
      have := hl r hr
      rw [h0, List.length_nil, eq_comm, List.length_eq_zero_iff] at this
      exact hn this
  · intro r hr
    rcases List.mem_cons.1 hr with rfl | hr
    · exact hc
    · exact h r hr

theorem column_map {β : Type} {names : List Str} {key : Str} {j : ℕ} (hj : names.findIdx? (fun s => s = key) = some j)
    {cells : β → List Str} {f : β → Str} (hf : ∀ d, (cells d)[j]? = some (f d)) (ds : List β) :
    column key (names, ds.map cells) = some (ds.map f) := by
  unfold column
  rw [hj]
  dsimp only
  induction ds with
  | nil => rfl
  | cons d ds ih => rw [List.map_cons, List.mapM_cons, hf, ih]; rfl

/-- The values of a column are those of a field of the records, up to the rounding of the output. -/
def HasColumn {β : Type} (F : NumFmt α) (t : List Str × List (List Str)) (ds : List β) (key : String) (f : β → α) : Prop :=
  ∃ toks, column key.toList t = some toks ∧ toks.map (readNum F) = ds.map fun d => some (F.round (f d))

/-- The same for integers, which are exact. -/
def HasNatColumn {β : Type} (t : List Str × List (List Str)) (ds : List β) (key : String) (f : β → ℕ) : Prop :=
  ∃ toks, column key.toList t = some toks ∧ toks.map readNat = ds.map fun d => some (f d)

theorem hasColumn {β : Type} (hF : F.Ok) {names : List Str} {key : String} {j : ℕ}
    (hj : names.findIdx? (fun s => s = key.toList) = some j) {cells : β → List Str} {f : β → α}
    (hf : ∀ d, (cells d)[j]? = some (F.print (f d))) (ds : List β) : HasColumn F (names, ds.map cells) ds key f := by
  refine ⟨_, column_map hj hf ds, ?_⟩
  rw [List.map_map]
  exact List.map_congr_left fun d _ => readNum_print hF (f d)

theorem hasNatColumn {β : Type} {names : List Str} {key : String} {j : ℕ}
    (hj : names.findIdx? (fun s => s = key.toList) = some j) {cells : β → List Str} {f : β → ℕ}
    (hf : ∀ d, (cells d)[j]? = some (printNat (f d))) (ds : List β) : HasNatColumn (names, ds.map cells) ds key f := by
  refine ⟨_, column_map hj hf ds, ?_⟩
  rw [List.map_map]
  exact List.map_congr_left fun d _ => readNat_printNat (f d)

/-- The header of the trace file of the DDP solver. -/
def namesDDP : List Str :=
  ["iter".toList, "cost".toList, "lambda".toList, "dlambda".toList, "alpha".toList, "k_rel_norm".toList, "cost_update_actual".toList,
   "cost_update_expected".toList, "cost_update_ratio".toList, "duration_derivative".toList, "duration_backward".toList,
   "duration_forward".toList]

/-- The tokens of one line. -/
def cellsDDP (F : NumFmt α) (d : TimedDDP α) : List Str :=
  [printNat d.data.iter, F.print d.data.cost, F.print d.data.lambda, F.print d.data.dlambda, F.print d.data.alpha,
   F.print d.data.kRelNorm, F.print d.data.actual, F.print d.data.expected, F.print d.data.ratio, F.print d.derivative,
   F.print d.backward, F.print d.forward]

theorem clean_names {names : List Str} (h : names.all fun t => t ≠ [] && t.all fun c => c ∉ special) : ∀ t ∈ names, Clean t := by
  intro t ht
  have := List.all_eq_true.1 h t ht
  simp only [ne_eq, decide_not, Bool.and_eq_true, Bool.not_eq_true', decide_eq_false_iff_not, List.all_eq_true] at this
  exact ⟨this.1, fun c hc => by simpa using this.2 c hc⟩

set_option maxRecDepth 4000 in
theorem dumpDDP_eq (traces : List (TimedDDP α)) :
    dumpDDP F traces = (namesDDP :: traces.map (cellsDDP F)).flatMap fun r => [' '].intercalate r ++ ['\n'] := by
  unfold dumpDDP
  rw [List.flatMap_cons, List.flatMap_map]
  refine congrArg₂ _ (by decide) ?_
  apply List.flatMap_congr
  intro d _
  simp [cellsDDP, List.intercalate_cons_cons]

theorem readDDP (hF : F.Ok) (traces : List (TimedDDP α)) :
    readNamed (some ' ') (dumpDDP F traces) = some (namesDDP, traces.map (cellsDDP F)) := by
  rw [dumpDDP_eq, readNamed_tokens]
  · have : namesDDP.map fixName = namesDDP := by decide
    rw [this]
  · decide
  · exact clean_names (by decide)
  · intro r hr
    obtain ⟨d, _, rfl⟩ := List.mem_map.1 hr
    rfl
  · intro r hr t ht
    obtain ⟨d, _, rfl⟩ := List.mem_map.1 hr
    simp only [cellsDDP, List.mem_cons, List.not_mem_nil, or_false] at ht
    rcases ht with rfl | rfl | rfl | rfl | rfl | rfl | rfl | rfl | rfl | rfl | rfl | rfl
    · exact clean_printNat _
    all_goals exact clean_print hF _

/-- **C77** The trace file of the DDP solver is read back by plotDDPTraceData.py: twelve different names, one row per record, and under
every name the values of the field it names; the iteration exactly, the other values up to the rounding of the output. -/
theorem C77_ddp (hF : F.Ok) (traces : List (TimedDDP α)) :
    ∃ t, readNamed (some ' ') (dumpDDP F traces) = some t ∧ t.1.length = 12 ∧ t.1.Nodup ∧ t.2.length = traces.length ∧
      HasNatColumn t traces "iter" (fun d => d.data.iter) ∧
      HasColumn F t traces "cost" (fun d => d.data.cost) ∧
      HasColumn F t traces "lambda" (fun d => d.data.lambda) ∧
      HasColumn F t traces "dlambda" (fun d => d.data.dlambda) ∧
      HasColumn F t traces "alpha" (fun d => d.data.alpha) ∧
      HasColumn F t traces "k_rel_norm" (fun d => d.data.kRelNorm) ∧
      HasColumn F t traces "cost_update_actual" (fun d => d.data.actual) ∧
      HasColumn F t traces "cost_update_expected" (fun d => d.data.expected) ∧
      HasColumn F t traces "cost_update_ratio" (fun d => d.data.ratio) ∧
      HasColumn F t traces "duration_derivative" (fun d => d.derivative) ∧
      HasColumn F t traces "duration_backward" (fun d => d.backward) ∧
      HasColumn F t traces "duration_forward" (fun d => d.forward) := by
  refine ⟨_, readDDP hF traces, rfl, (by decide : namesDDP.Nodup), by simp, ?_, ?_, ?_, ?_, ?_, ?_, ?_, ?_, ?_, ?_, ?_, ?_⟩
  · exact hasNatColumn (j := 0) (by decide) (fun _ => rfl) _
  · exact hasColumn hF (j := 1) (by decide) (fun _ => rfl) _
  · exact hasColumn hF (j := 2) (by decide) (fun _ => rfl) _
  · exact hasColumn hF (j := 3) (by decide) (fun _ => rfl) _
  · exact hasColumn hF (j := 4) (by decide) (fun _ => rfl) _
  · exact hasColumn hF (j := 5) (by decide) (fun _ => rfl) _
  · exact hasColumn hF (j := 6) (by decide) (fun _ => rfl) _
  · exact hasColumn hF (j := 7) (by decide) (fun _ => rfl) _
  · exact hasColumn hF (j := 8) (by decide) (fun _ => rfl) _
  · exact hasColumn hF (j := 9) (by decide) (fun _ => rfl) _
  · exact hasColumn hF (j := 10) (by decide) (fun _ => rfl) _
  · exact hasColumn hF (j := 11) (by decide) (fun _ => rfl) _

/-- The header of the trace file of the FMPC solver. -/
def namesFMPC : List Str :=
  ["iter".toList, "kkt_error".toList, "duration_coeff".toList, "duration_backward".toList, "duration_forward".toList,
   "duration_update".toList]

/-- The tokens of one line. -/
def cellsFMPC (F : NumFmt α) (d : TimedFMPC α) : List Str :=
  [printNat d.data.iter, F.print d.data.kktError, F.print d.coeff, F.print d.backward, F.print d.forward, F.print d.update]

theorem dumpFMPC_eq (traces : List (TimedFMPC α)) :
    dumpFMPC F traces = (namesFMPC :: traces.map (cellsFMPC F)).flatMap fun r => [' '].intercalate r ++ ['\n'] := by
  unfold dumpFMPC
  rw [List.flatMap_cons, List.flatMap_map]
  refine congrArg₂ _ (by decide) ?_
  apply List.flatMap_congr
  intro d _
  simp [cellsFMPC, List.intercalate_cons_cons]

theorem readFMPC (hF : F.Ok) (traces : List (TimedFMPC α)) :
    readNamed (some ' ') (dumpFMPC F traces) = some (namesFMPC, traces.map (cellsFMPC F)) := by
  rw [dumpFMPC_eq, readNamed_tokens]
  · have : namesFMPC.map fixName = namesFMPC := by decide
    rw [this]
  · decide
  · exact clean_names (by decide)
  · intro r hr
    obtain ⟨d, _, rfl⟩ := List.mem_map.1 hr
    rfl
  · intro r hr t ht
    obtain ⟨d, _, rfl⟩ := List.mem_map.1 hr
    simp only [cellsFMPC, List.mem_cons, List.not_mem_nil, or_false] at ht
    rcases ht with rfl | rfl | rfl | rfl | rfl | rfl
    · exact clean_printNat _
    all_goals exact clean_print hF _

/-- **C77** for the trace file of the FMPC solver. -/
theorem C77_fmpc (hF : F.Ok) (traces : List (TimedFMPC α)) :
    ∃ t, readNamed (some ' ') (dumpFMPC F traces) = some t ∧ t.1.length = 6 ∧ t.1.Nodup ∧ t.2.length = traces.length ∧
      HasNatColumn t traces "iter" (fun d => d.data.iter) ∧
      HasColumn F t traces "kkt_error" (fun d => d.data.kktError) ∧
      HasColumn F t traces "duration_coeff" (fun d => d.coeff) ∧
      HasColumn F t traces "duration_backward" (fun d => d.backward) ∧
      HasColumn F t traces "duration_forward" (fun d => d.forward) ∧
      HasColumn F t traces "duration_update" (fun d => d.update) := by
  refine ⟨_, readFMPC hF traces, rfl, (by decide : namesFMPC.Nodup), by simp, ?_, ?_, ?_, ?_, ?_, ?_⟩
  · exact hasNatColumn (j := 0) (by decide) (fun _ => rfl) _
  · exact hasColumn hF (j := 1) (by decide) (fun _ => rfl) _
  · exact hasColumn hF (j := 2) (by decide) (fun _ => rfl) _
  · exact hasColumn hF (j := 3) (by decide) (fun _ => rfl) _
  · exact hasColumn hF (j := 4) (by decide) (fun _ => rfl) _
  · exact hasColumn hF (j := 5) (by decide) (fun _ => rfl) _

section Solve
variable [Add α] [Sub α] [Mul α] [Div α] [Neg α] [Zero α] [One α] [FOps α]

/-- **C77** After a call of `DDPSolver::solve` with valid arguments, in any arithmetic, the file has the rows `0, 1, …, k` with
`k ≤ max_iter`. -/
theorem C77_ddp_solve (hF : F.Ok) {n : ℕ} {md : α → ℕ} {L : LLT α} {P : DDP.Callbacks n md}
    {lim : Option ((t : α) → Vec (md t) α × Vec (md t) α)} {dt : α} {cfg : DDP.Config α} {o : DDP.Obj n α} {t0 : α}
    {scratch : DDP.Scratch n (fun i => md (DDP.timeAt t0 dt i)) α} {x0 : Vec n α} {us : List (Σ k : ℕ, Vec k α)}
    (hN : (us.length : ℤ) = cfg.horizon) (hd : DDP.DimsOk md t0 dt us) (traces : List (TimedDDP α))
    (ht : traces.map TimedDDP.data = (DDP.solve L P lim dt cfg o t0 scratch x0 us).1.trace) :
    ∃ (k : ℕ) (t : List Str × List (List Str)) (toks : List Str), k ≤ cfg.maxIter.toNat ∧
      readNamed (some ' ') (dumpDDP F traces) = some t ∧ column "iter".toList t = some toks ∧
      toks.map readNat = (List.range (k + 1)).map some := by
  obtain ⟨k, hk, h⟩ := DDP.C14_iterations (L := L) (P := P) (lim := lim) (o := o) (scratch := scratch) (x0 := x0) hN hd
  obtain ⟨t, h1, -, -, -, ⟨toks, h2, h3⟩, -⟩ := C77_ddp hF traces
  refine ⟨k, t, toks, hk, h1, h2, ?_⟩
  rw [h3, ← h, ← ht, List.map_map, List.map_map]
  rfl

end Solve

/-- Decimal digits for natural numbers. -/
def natFmt : NumFmt ℕ := ⟨printNat, readNat, id⟩

theorem natFmt_ok : natFmt.Ok :=
  ⟨fun v => (clean_printNat v).nonempty, fun v => (clean_printNat v).chars, readNat_printNat⟩

/-- The text for two records, and what is read. -/
example : dumpFMPC natFmt [⟨⟨1, 250⟩, 3, 40, 5, 6⟩, ⟨⟨2, 7⟩, 3, 41, 5, 6⟩] =
    ("iter kkt_error duration_coeff duration_backward duration_forward duration_update\n" ++ "1 250 3 40 5 6\n" ++ "2 7 3 41 5 6\n").toList := by
  decide

example : ∃ t, readNamed (some ' ') (dumpFMPC natFmt [⟨⟨1, 250⟩, 3, 40, 5, 6⟩, ⟨⟨2, 7⟩, 3, 41, 5, 6⟩]) = some t ∧
    column "kkt_error".toList t = some ["250".toList, "7".toList] := by
  refine ⟨_, readFMPC natFmt_ok _, by decide⟩

end Nmpc.Text
