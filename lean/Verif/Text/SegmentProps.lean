import Verif.Text.Segments
import Verif.Text.Result
import Verif.Problems.Model

/-!
# C110: the shading of the vertical motion plots
-/

namespace Nmpc.Text

variable {l : List ℕ}

/-- The spans of the script for valid counts. -/
theorem spans_ok (h2 : 2 ≤ l.length) (h3 : ∀ c ∈ l, c < 3) :
    spans l = some ((pairs 0 (npWhere (diffs l)) (l.length - 1)).map fun p =>
      ⟨p.1, p.2, contactColor (l[p.1]?.getD 0), if p.1 ≠ l.idxOf (l[p.1]?.getD 0) then none else some (contactLabel (l[p.1]?.getD 0))⟩) := by
  have hl : l ≠ [] := by rintro rfl; simp at h2
  have hb : ∀ j ∈ 0 :: npWhere (diffs l), j ≤ l.length - 1 := by
    intro j hj
    rcases List.mem_cons.1 hj with rfl | hj
    · omega
    · have := ((mem_switch hl).1 hj).2.1
      omega
  obtain ⟨-, k2, -⟩ := pairs_facts switch_sorted hb
  rw [spans_eq h2]
  refine mapM_some fun p hp => ?_
  obtain ⟨_, c2, c3, _⟩ := k2 p hp
  have hp1 : p.1 < l.length := by omega
  have hc : l[p.1]? = some (l[p.1]?.getD 0) := by rw [List.getElem?_eq_getElem hp1]; rfl
  refine spanAt_some hp1 (by omega) hc (h3 _ ?_)
  rw [List.getElem?_eq_getElem hp1]
  exact List.getElem_mem hp1

theorem not_before_idxOf {c i : ℕ} (h : i < l.idxOf c) : l[i]? ≠ some c := by
  intro h'
  obtain ⟨i1, e1⟩ := List.getElem?_eq_some_iff.1 h'
  have := List.not_of_lt_findIdx (p := (· == c)) (xs := l) h
  simp [e1] at this

theorem pairs_next {e : ℕ} : ∀ {w : List ℕ} {s k : ℕ} {p q : ℕ × ℕ}, (pairs s w e)[k]? = some p → (pairs s w e)[k + 1]? = some q →
    p.2 = q.1 ∧ q.1 ∈ w
  | [], s, k, p, q, _, h2 => by simp [pairs] at h2
  | a :: w, s, 0, p, q, h1, h2 => by
    rw [pairs_cons] at h1 h2
    simp only [List.getElem?_cons_zero, Option.some.injEq] at h1
    subst h1
    cases w with
    | nil =>
      simp [pairs] at h2
      subst h2; simp
    | cons b w =>
      rw [pairs_cons] at h2
      simp at h2
      subst h2; simp
  | a :: w, s, k + 1, p, q, h1, h2 => by
    rw [pairs_cons, List.getElem?_cons_succ] at h1 h2
    obtain ⟨h3, h4⟩ := pairs_next h1 h2
    exact ⟨h3, List.mem_cons_of_mem _ h4⟩

theorem contactColor_inj {a b : ℕ} (ha : a < 3) (hb : b < 3) (h : contactColor a = contactColor b) : a = b := by
  interval_cases a <;> interval_cases b <;> revert h <;> decide

theorem contactLabel_inj {a b : ℕ} (ha : a < 3) (hb : b < 3) (h : contactLabel a = contactLabel b) : a = b := by
  interval_cases a <;> interval_cases b <;> revert h <;> decide

/-- **C110** For every column `num_contact` of at least two lines with at most two contacts the script shades the plot without error:
every interval between two lines of the file gets exactly one colour, the one of the number of contacts at its start; the spans are in
order and neighbouring spans have different colours; every number of contacts that occurs is explained by exactly one label, at the span that starts with
its first line. -/
theorem C110_spans (h2 : 2 ≤ l.length) (h3 : ∀ c ∈ l, c < 3) :
    ∃ ss, spans l = some ss ∧ (ss.map Span.start).Pairwise (· < ·) ∧
      (∀ i, i + 1 < l.length → ∃! sp, sp ∈ ss ∧ sp.start ≤ i ∧ i + 1 ≤ sp.stop) ∧
      (∀ sp ∈ ss, sp.stop < l.length ∧ ∀ i c, sp.start ≤ i → i < sp.stop ∨ i = sp.start → l[i]? = some c →
        sp.color = contactColor c) ∧
      (∀ k sp sp', ss[k]? = some sp → ss[k + 1]? = some sp' → sp.stop = sp'.start ∧ sp.color ≠ sp'.color) ∧
      (∀ c ∈ l, ∃! sp, sp ∈ ss ∧ sp.label = some (contactLabel c)) ∧
      ∀ sp ∈ ss, ∀ t, sp.label = some t → ∃ c, l[sp.start]? = some c ∧ t = contactLabel c ∧ ∀ i, i < sp.start → l[i]? ≠ some c := by
  have hl : l ≠ [] := by rintro rfl; simp at h2
  have hb : ∀ j ∈ 0 :: npWhere (diffs l), j ≤ l.length - 1 := by
    intro j hj
    rcases List.mem_cons.1 hj with rfl | hj
    · omega
    · have := ((mem_switch hl).1 hj).2.1
      omega
  obtain ⟨k1, k2, k3⟩ := pairs_facts switch_sorted hb
  set ps := pairs 0 (npWhere (diffs l)) (l.length - 1) with hps
  have hfst : ps.map Prod.fst = 0 :: npWhere (diffs l) := pairs_fst _ _ _
  set F : ℕ × ℕ → Span := fun p =>
      ⟨p.1, p.2, contactColor (l[p.1]?.getD 0), if p.1 ≠ l.idxOf (l[p.1]?.getD 0) then none else some (contactLabel (l[p.1]?.getD 0))⟩ with hF
  have hsw : ∀ p ∈ ps, ∀ q ∈ ps, p.1 = q.1 → p = q := by
    intro p hp q hq h
    have hn : (ps.map Prod.fst).Nodup := by rw [hfst]; exact switch_sorted.imp (fun h => Nat.ne_of_lt h)
    exact List.inj_on_of_nodup_map hn hp hq h
  have hval : ∀ p ∈ ps, ∃ c, l[p.1]? = some c ∧ c ∈ l ∧ c < 3 := by
    intro p hp
    have hp1 : p.1 < l.length := by have := k2 p hp; omega
    exact ⟨l[p.1], List.getElem?_eq_getElem hp1, List.getElem_mem hp1, h3 _ (List.getElem_mem hp1)⟩
  refine ⟨_, spans_ok h2 h3, ?_, ?_, ?_, ?_, ?_, ?_⟩
  · rw [List.map_map]
    show (ps.map Prod.fst).Pairwise _
    rw [hfst]
    exact switch_sorted
  · intro i hi
    obtain ⟨p, hp, h4, h5⟩ := k3 i (Nat.zero_le _) (by omega)
    refine ⟨F p, ⟨List.mem_map_of_mem hp, h4, h5⟩, ?_⟩
    rintro sp ⟨hsp, h6, h7⟩
    obtain ⟨q, hq, rfl⟩ := List.mem_map.1 hsp
    dsimp only at h6 h7
    refine congrArg F ?_
    by_contra hne
    rcases List.Pairwise.forall_of_forall_of_flip (R := fun p q : ℕ × ℕ => p ≠ q → p.2 ≤ q.1 ∨ q.2 ≤ p.1) (l := ps) (by
        intro x _ h; exact absurd rfl h) (k1.imp fun h _ => .inl h) (k1.imp fun h _ => .inr h) hq hp hne with h | h <;> omega
  · intro sp hsp
    obtain ⟨p, hp, rfl⟩ := List.mem_map.1 hsp
    obtain ⟨_, c2, c3, c4⟩ := k2 p hp
    refine ⟨by dsimp only; omega, fun i c h4 h5 h6 => ?_⟩
    dsimp only at h4 h5 ⊢
    have hil : i < l.length := by by_contra h; rw [List.getElem?_eq_none (by omega)] at h6; cases h6
    have he : l[i]? = l[p.1]? := by
      rcases h5 with h5 | h5
      · exact const_between h4 hil fun j hj => (c4 j (List.mem_cons_of_mem _ hj)).imp_right fun h7 => by omega
      · rw [h5]
    rw [← he, h6]
    rfl
  · intro k sp sp' h4 h5
    rw [List.getElem?_map, Option.map_eq_some_iff] at h4 h5
    obtain ⟨p, hp, rfl⟩ := h4
    obtain ⟨q, hq, rfl⟩ := h5
    obtain ⟨h6, h7⟩ := pairs_next hp hq
    refine ⟨h6, fun h8 => ?_⟩
    dsimp only at h8
    have hpm := List.mem_of_getElem? hp
    have hqm := List.mem_of_getElem? hq
    obtain ⟨c, hc, _, hc3⟩ := hval p hpm
    obtain ⟨c', hc', _, hc3'⟩ := hval q hqm
    rw [hc, hc'] at h8
    have := contactColor_inj hc3 hc3' h8
    subst this
    obtain ⟨m1, m2, m3⟩ := (mem_switch hl).1 h7
    have hlt : p.1 < q.1 := by
      have := switch_sorted (l := l)
      rw [← hfst, List.pairwise_map] at this
      rw [List.pairwise_iff_getElem] at this
      obtain ⟨i1, e1⟩ := List.getElem?_eq_some_iff.1 hp
      obtain ⟨i2, e2⟩ := List.getElem?_eq_some_iff.1 hq
      have h9 := this k (k + 1) i1 i2 (by omega)
      rwa [e1, e2] at h9
    refine m3 ?_
    rw [hc', ← hc]
    symm
    refine const_between (by omega) (by omega) fun j hj => ?_
    rcases (k2 p hpm).2.2.2 j (List.mem_cons_of_mem _ hj) with h | h
    · exact .inl h
    · exact .inr (by omega)
  · intro c hc
    have hi : l.idxOf c < l.length := List.idxOf_lt_length_iff.2 hc
    have hget : l[l.idxOf c]? = some c := by
      rw [List.getElem?_eq_getElem hi, List.getElem_idxOf hi]
    have hmem : l.idxOf c ∈ 0 :: npWhere (diffs l) := by
      rcases Nat.eq_zero_or_pos (l.idxOf c) with h | h
      · rw [h]; exact List.mem_cons_self
      · refine List.mem_cons_of_mem _ ((mem_switch hl).2 ⟨h, hi, fun h4 => ?_⟩)
        rw [hget] at h4
        have h5 : l.idxOf c - 1 < l.idxOf c := by omega
        exact not_before_idxOf h5 h4.symm
    rw [← hfst] at hmem
    obtain ⟨p, hp, hp1⟩ := List.mem_map.1 hmem
    refine ⟨F p, ⟨List.mem_map_of_mem hp, ?_⟩, ?_⟩
    · simp only [hF, hp1, hget, Option.getD_some, ne_eq, not_true_eq_false, if_false]
    · rintro sp ⟨hsp, h6⟩
      obtain ⟨q, hq, rfl⟩ := List.mem_map.1 hsp
      dsimp only at h6
      obtain ⟨c', hc', hm', hc3'⟩ := hval q hq
      rw [hc', Option.getD_some] at h6
      split at h6
      · cases h6
      · rename_i h7
        rw [not_not] at h7
        have := contactLabel_inj hc3' (h3 c hc) (Option.some.inj h6)
        subst this
        rw [hsw q hq p hp (by rw [h7, hp1])]
  · intro sp hsp t ht
    obtain ⟨q, hq, rfl⟩ := List.mem_map.1 hsp
    dsimp only at ht
    obtain ⟨c', hc', hm', hc3'⟩ := hval q hq
    rw [hc', Option.getD_some] at ht
    split at ht
    · cases ht
    · rename_i h7
      rw [not_not] at h7
      refine ⟨c', hc', (Option.some.inj ht).symm, fun i hi h8 => ?_⟩
      dsimp only at hi
      rw [h7] at hi
      exact not_before_idxOf hi h8

/-- **C110** With three or more contacts anywhere, or with a single line, the script fails. -/
theorem C110_fails : (∀ c ∈ l, 3 ≤ c → spans l = none) ∧ (l.length ≤ 1 → spans l = none) := by
  refine ⟨fun c hc h3 => ?_, fun h => ?_⟩
  · rcases Nat.lt_or_ge l.length 2 with h2 | h2
    · have : l.length = 1 := by have := List.length_pos_of_mem hc; omega
      unfold spans
      rw [if_pos this]
    have hl : l ≠ [] := by rintro rfl; simp at h2
    have hi : l.idxOf c < l.length := List.idxOf_lt_length_iff.2 hc
    have hget : l[l.idxOf c]? = some c := by
      rw [List.getElem?_eq_getElem hi, List.getElem_idxOf hi]
    have hmem : l.idxOf c ∈ 0 :: npWhere (diffs l) := by
      rcases Nat.eq_zero_or_pos (l.idxOf c) with h | h
      · rw [h]; exact List.mem_cons_self
      · refine List.mem_cons_of_mem _ ((mem_switch hl).2 ⟨h, hi, fun h4 => ?_⟩)
        rw [hget] at h4
        have h5 : l.idxOf c - 1 < l.idxOf c := by omega
        exact not_before_idxOf h5 h4.symm
    rw [← pairs_fst 0 (npWhere (diffs l)) (l.length - 1)] at hmem
    obtain ⟨p, hp, hp1⟩ := List.mem_map.1 hmem
    rw [spans_eq h2]
    refine mapM_none ?_ hp
    unfold spanAt
    split
    · rename_i h
      unfold spanOf
      rw [pyIndex_nat, pyIndex_nat, if_pos h.1, if_pos h.2]
      simp only [Option.bind_some, hp1, hget]
      rw [List.getElem?_eq_none (by simpa using h3)]
      rfl
    · rfl
  · rcases Nat.eq_zero_or_pos l.length with h0 | h0
    · obtain rfl := List.length_eq_zero_iff.1 h0
      rfl
    · unfold spans
      rw [if_pos (by omega)]

/-- **C110** The result file of any run of the vertical motion test with at least two lines is plotted without error: the counts written
by the test are input dimensions of the problem. -/
theorem C110_vertical {F : NumFmt ℝ} (hF : F.Ok) (ls : List (VerticalRow ℝ)) (h2 : 2 ≤ ls.length)
    (h : ∀ r ∈ ls, r.contacts = Problems.Vertical.inputDim r.t) :
    ∃ t, readNamed none (resultVertical F ls) = some t ∧ HasNatColumn t ls "num_contact" (fun r => r.contacts) ∧
      ∃ ss, spans (ls.map fun r => r.contacts) = some ss ∧
        ∀ i r, i + 1 < ls.length → ls[i]? = some r → ∃! sp, sp ∈ ss ∧ sp.start ≤ i ∧ i + 1 ≤ sp.stop ∧
          sp.color = contactColor (Problems.Vertical.inputDim r.t) := by
  obtain ⟨t, h1, _, _, _, _, _, _, _, _, h3, _⟩ := C79_vertical hF ls
  obtain ⟨ss, k1, _, k3, k4, _⟩ := C110_spans (l := ls.map fun r => r.contacts) (by simpa using h2) (by
    intro c hc
    obtain ⟨r, hr, rfl⟩ := List.mem_map.1 hc
    rw [h r hr]
    unfold Problems.Vertical.inputDim
    dsimp only
    split
    · decide
    · split <;> decide)
  refine ⟨t, h1, h3, ss, k1, fun i r hi hr => ?_⟩
  obtain ⟨sp, ⟨m1, m2, m3⟩, m4⟩ := k3 i (by simpa using hi)
  refine ⟨sp, ⟨m1, m2, m3, ?_⟩, fun sp' hsp' => m4 sp' ⟨hsp'.1, hsp'.2.1, hsp'.2.2.1⟩⟩
  rw [← h r (List.mem_of_getElem? hr)]
  exact (k4 sp m1).2 i _ m2 (.inl m3) (by rw [List.getElem?_map, hr]; rfl)

/-- Two switches, one of them in the last line: the last span has no width. -/
example : (spans [1, 1, 2, 2, 1]).map (·.map fun s => (s.start, s.stop, s.color, s.label)) =
    some [(0, 2, "green", some "1 contact"), (2, 4, "yellow", some "2 contacts"), (4, 4, "green", none)] := by decide

end Nmpc.Text
