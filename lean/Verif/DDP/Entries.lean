import Verif.DDP.Props

/-!
# Which iteration wrote which trace entry
-/

namespace Nmpc.DDP

set_option linter.unusedSectionVars false

variable {α : Type} [Add α] [Sub α] [Mul α] [Div α] [Neg α] [Zero α] [One α] [FOps α]
variable {n : ℕ} {m : ℕ → ℕ} {L : LLT α} {N : ℕ} {cfg : Config α} {S : Stages n m α}

/-- Entry `i ≥ 1` of the trace `T` was appended by iteration `i`, before which the trace consisted of the earlier
entries. -/
def Origins (L : LLT α) (N : ℕ) (cfg : Config α) (S : Stages n m α) (s0 : Solver n m α) (T : List (Trace α)) : Prop :=
  ∀ i e, 1 ≤ i → T[i]? = some e →
    ∃ s, Reaches L N cfg S s0 i s ∧ (procOnce L N cfg S i s).1.trace = s.trace ++ [e] ∧ s.trace = T.take i

theorem origins_step {s0 s : Solver n m α} {k : ℕ} (h : Reaches L N cfg S s0 k s) (hl : s.trace.length = k)
    (ho : Origins L N cfg S s0 s.trace) :
    (procOnce L N cfg S k s).1.trace.length = k + 1 ∧ Origins L N cfg S s0 (procOnce L N cfg S k s).1.trace := by
  obtain ⟨e', h1, _⟩ := procOnce_trace (L := L) (N := N) (cfg := cfg) (S := S) k s
  rw [h1]
  refine ⟨by simp [hl], ?_⟩
  intro i e hi he
  rcases Nat.lt_or_ge i k with hik | hik
  · rw [List.getElem?_append_left (by omega)] at he
    obtain ⟨s', h2, h3, h4⟩ := ho i e hi he
    exact ⟨s', h2, h3, by rw [List.take_append_of_le_length (by omega)]; exact h4⟩
  · have : i = k := by
      have := (List.getElem?_eq_some_iff.1 he).1
      simp [hl] at this; omega
    subst this
    rw [← hl, List.getElem?_concat_length] at he
    cases he
    exact ⟨s, h, h1, by rw [List.take_append_of_le_length (by omega), List.take_of_length_le (by omega)]⟩

theorem origins_reaches {s0 s : Solver n m α} {k : ℕ} (h0 : s0.trace.length = 1) (h : Reaches L N cfg S s0 k s) :
    s.trace.length = k ∧ Origins L N cfg S s0 s.trace := by
  induction h with
  | start =>
    refine ⟨h0, ?_⟩
    intro i e hi he
    have := (List.getElem?_eq_some_iff.1 he).1
    omega
  | @next k s s' h1 h2 ih =>
    have := origins_step h1 ih.1 ih.2
    rw [h2] at this
    exact this

theorem origins_optLoop {s0 : Solver n m α} (h0 : s0.trace.length = 1) (r : ℕ) :
    Origins L N cfg S s0 (optLoop L N cfg S r 1 s0).1.trace := by
  rcases optLoop_reaches (L := L) (N := N) (cfg := cfg) (S := S) r 1 (Reaches.start (s0 := s0)) with
    ⟨_, h1⟩ | ⟨j, s', _, _, h3, h4, _⟩
  · exact (origins_reaches h0 h1).2
  · rw [← h4]
    have := origins_reaches h0 h3
    exact (origins_step h3 this.1 this.2).2

/-- The entry of an iteration that got as far as the line search. -/
structure FromSearch (L : LLT α) (N : ℕ) (cfg : Config α) (S : Stages n m α) (i : ℕ) (s s2 : Solver n m α)
    (e : Trace α) : Prop where
  bw : bwSearch L N cfg S (startIter N cfg S i s) = (s2, .ok true)
  alpha : e.alpha = (lineSearch N cfg S s2).alpha
  actual : e.actual = (lineSearch N cfg S s2).actual
  expected : e.expected = (lineSearch N cfg S s2).expected
  ratio : e.ratio = (lineSearch N cfg S s2).ratio
  krn : e.kRelNorm = kRelNorm N s2
  cost : e.cost = totalCost N (if (lineSearch N cfg S s2).success = true then (lineSearch N cfg S s2).cand else s2.ctrl)

theorem entry_fromSearch {i : ℕ} {s : Solver n m α} {e : Trace α}
    (h : (procOnce L N cfg S i s).1.trace = s.trace ++ [e]) (ha : e.alpha ≠ 0) :
    ∃ s2, FromSearch L N cfg S i s s2 e := by
  have hf := bwSearch_frame (L := L) (N := N) (cfg := cfg) (S := S) (startIter N cfg S i s)
  have := procOnce_out (L := L) (N := N) (cfg := cfg) (S := S) i s
  generalize procOnce L N cfg S i s = r at this h
  have inj : ∀ {a b : Trace α}, s.trace ++ [a] = s.trace ++ [b] → a = b := by
    intro a b h; simpa using h
  cases this with
  | bwFail s2 hb =>
    rw [hb] at hf
    exact absurd (by rw [← inj (hf.2.2.symm.trans h)]; rfl) ha
  | err s2 e he hb =>
    rw [hb] at hf
    exact absurd (by rw [← inj (hf.2.2.symm.trans h)]; rfl) ha
  | small s2 hb hk hl =>
    exact absurd (by rw [← inj h]; rfl) ha
  | full s2 hb hk =>
    have := finishStep_out (N := N) (cfg := cfg) s.trace
      { Trace.new i with
        kRelNorm := kRelNorm N s2, alpha := (lineSearch N cfg S s2).alpha, actual := (lineSearch N cfg S s2).actual,
        expected := (lineSearch N cfg S s2).expected, ratio := (lineSearch N cfg S s2).ratio } (lineSearch N cfg S s2) s2
    generalize finishStep N cfg s.trace _ (lineSearch N cfg S s2) s2 = r at this h
    cases this with
    | accept hs => rw [← inj h]; exact ⟨s2, hb, rfl, rfl, rfl, rfl, rfl, by rw [if_pos hs]⟩
    | reject hs => rw [← inj h]; exact ⟨s2, hb, rfl, rfl, rfl, rfl, rfl, by rw [if_neg (by simp [hs])]⟩

theorem reaches_consistent {s0 s : Solver n m α} {k : ℕ} {x0 : Vec n α} (h0 : Consistent N S x0 s0.ctrl)
    (h : Reaches L N cfg S s0 k s) : Consistent N S x0 s.ctrl := by
  induction h with
  | start => exact h0
  | @next k s s' h1 h2 ih =>
    have := procOnce_ctrl (L := L) (N := N) (cfg := cfg) (S := S) k s
    rw [h2] at this
    rcases this with h' | ⟨a, _, g, h'⟩
    · dsimp only at h'; rw [h']; exact ih
    · dsimp only at h'; rw [h']; exact forwardPass_consistent ih.start

variable {md : α → ℕ} {P : Callbacks n md} {lim : Option ((t : α) → Vec (md t) α × Vec (md t) α)}
  {dt t0 : α} {o : Obj n α} {x0 : Vec n α} {us : List (Σ k : ℕ, Vec k α)}
  {scratch : Scratch n (fun i => md (timeAt t0 dt i)) α}

/-- The trace entries of `solve` and the iterations they come from. -/
theorem solve_entry (hN : (us.length : ℤ) = cfg.horizon) (hd : DimsOk md t0 dt us) {i : ℕ} {e : Trace α}
    (he : (solve L P lim dt cfg o t0 scratch x0 us).1.trace[i]? = some e) (ha : e.alpha ≠ 0) :
    1 ≤ i ∧ ∃ s s2, Reaches L us.length cfg (stagesOf P lim t0 dt us.length) (start P lim dt cfg t0 scratch x0 us) i s ∧
      Consistent us.length (stagesOf P lim t0 dt us.length) x0 s.ctrl ∧
      s.trace = (solve L P lim dt cfg o t0 scratch x0 us).1.trace.take i ∧
      FromSearch L us.length cfg (stagesOf P lim t0 dt us.length) i s s2 e := by
  rw [solve_valid hN hd] at he ⊢
  dsimp only at he ⊢
  have h1 : 1 ≤ i := by
    by_contra h
    have hi : i = 0 := by omega
    subst hi
    -- the first entry is the initial one
    have h0 : (final L P lim dt cfg t0 scratch x0 us).1.trace[0]? = (start P lim dt cfg t0 scratch x0 us).trace[0]? := by
      refine optLoop_rule (fun _ s => s.trace[0]? = (start P lim dt cfg t0 scratch x0 us).trace[0]?)
        (fun q => q.1.trace[0]? = (start P lim dt cfg t0 scratch x0 us).trace[0]?) _ _ rfl ?_ ?_ (fun s h => h)
      · intro j s s' _ _ hs hp
        obtain ⟨e', h1, _⟩ := procOnce_trace (L := L) (N := us.length) (cfg := cfg)
          (S := stagesOf P lim t0 dt us.length) j s
        rw [hp] at h1
        dsimp only at h1
        rw [h1, List.getElem?_append_left, hs]
        by_contra hlen
        have hlen : s.trace = [] := List.length_eq_zero_iff.1 (by omega)
        rw [hlen] at hs; cases hs
      · intro j s s' er _ _ hs hp _
        obtain ⟨e', h1, _⟩ := procOnce_trace (L := L) (N := us.length) (cfg := cfg)
          (S := stagesOf P lim t0 dt us.length) j s
        rw [hp] at h1
        dsimp only at h1 ⊢
        rw [h1, List.getElem?_append_left, hs]
        by_contra hlen
        have hlen : s.trace = [] := List.length_eq_zero_iff.1 (by omega)
        rw [hlen] at hs; cases hs
    rw [h0] at he
    simp [initSolver, Trace.new] at he
    rw [← he] at ha
    exact ha rfl
  refine ⟨h1, ?_⟩
  obtain ⟨s, h2, h3, h4⟩ := origins_optLoop (L := L) (N := us.length) (cfg := cfg) (S := stagesOf P lim t0 dt us.length)
    (s0 := start P lim dt cfg t0 scratch x0 us) rfl cfg.maxIter.toNat i e h1 he
  obtain ⟨s2, h5⟩ := entry_fromSearch h3 ha
  exact ⟨s, s2, h2, reaches_consistent (rollout_consistent _ _) h2, h4, h5⟩

end Nmpc.DDP
