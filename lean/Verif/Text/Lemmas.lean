import Verif.Text.Model

/-!
# Splitting of the written lines
-/

namespace Nmpc.Text

/-- A token the readers take as it is. -/
structure Clean (tok : Str) : Prop where
  nonempty : tok ≠ []
  chars : ∀ c ∈ tok, c ∉ special

theorem clean_print {α : Type} {F : NumFmt α} (hF : F.Ok) (v : α) : Clean (F.print v) := ⟨hF.nonempty v, hF.clean v⟩

theorem clean_printNat (k : ℕ) : Clean (printNat k) := by
  refine ⟨Nat.toDigits_ne_nil, fun c hc => ?_⟩
  have h : c.isDigit = true := Nat.isDigit_of_mem_toDigits (by norm_num) (by norm_num) hc
  intro hs
  simp only [special, List.mem_cons, List.not_mem_nil, or_false] at hs
  rcases hs with rfl | rfl | rfl | rfl | rfl <;> revert h <;> decide

/-- Beginning and end are not blank. -/
def Tight (l : Str) : Prop :=
  (∀ c, l.head? = some c → c ∉ special) ∧ (∀ c, l.getLast? = some c → c ∉ special)

theorem Clean.tight {tok : Str} (h : Clean tok) : Tight tok :=
  ⟨fun c hc => h.chars c (List.mem_of_mem_head? hc), fun c hc => h.chars c (List.mem_of_getLast? hc)⟩

theorem strip_tight {l : Str} (h : Tight l) : strip l = l := by
  unfold strip
  have h1 : ∀ {l : Str}, (∀ c, l.head? = some c → c ∉ special) →
      l.dropWhile isBlank = l := by
    intro l hl
    match l, hl with
    | [], _ => rfl
    | c :: l, hl =>
      have := hl c rfl
      rw [List.dropWhile_cons, if_neg]
      intro hc
      apply this
      simp only [isBlank, Bool.or_eq_true, decide_eq_true_eq] at hc
      rcases hc with (rfl | rfl) | rfl <;> decide
  rw [h1 h.1, h1 (fun c hc => h.2 c (by rwa [List.head?_reverse] at hc)), List.reverse_reverse]

theorem strip_pad {tok : Str} (h : Clean tok) (k : ℕ) : strip (List.replicate k ' ' ++ tok) = tok := by
  have : strip (List.replicate k ' ' ++ tok) = strip tok := by
    unfold strip
    induction k with
    | zero => simp
    | succ k ih =>
      rw [List.replicate_succ, List.cons_append, List.dropWhile_cons, if_pos (by decide)]
      exact ih
  rw [this, strip_tight h.tight]

theorem takeWhile_hash {l : Str} (h : '#' ∉ l) : (l.takeWhile fun c => c ≠ '#') = l := by
  induction l with
  | nil => rfl
  | cons c l ih =>
    rw [List.mem_cons, not_or] at h
    rw [List.takeWhile_cons, if_pos (by simpa using fun hc => h.1 hc.symm), ih h.2]

theorem splitLine_tight {delim : Char} {l : Str} (h : Tight l) (hne : l ≠ []) (hh : '#' ∉ l) :
    splitLine (some delim) l = l.splitOn delim := by
  unfold splitLine
  rw [takeWhile_hash hh, strip_tight h]
  simp [hne]

theorem words_append (a b : Str) : words (a ++ ' ' :: b) = words a ++ words b := by
  unfold words
  rw [List.splitOn_append_cons_self, List.filter_append]

theorem words_blank (b : Str) : words (' ' :: b) = words b := words_append [] b

theorem words_append_blank (a : Str) : words (a ++ [' ']) = words a := by
  rw [words_append]; simp [words]

theorem words_clean {tok : Str} (h : Clean tok) : words tok = [tok] := by
  unfold words
  rw [List.splitOn_eq_singleton fun hc => h.chars _ hc (by decide)]
  simp [h.nonempty]

theorem words_pad {tok : Str} (h : Clean tok) (k : ℕ) : words (List.replicate k ' ' ++ tok) = [tok] := by
  induction k with
  | zero => simpa using words_clean h
  | succ k ih => rw [List.replicate_succ, List.cons_append, words_blank, ih]

theorem words_intercalate (ts : List Str) : words ([' '].intercalate ts) = ts.flatMap words := by
  induction ts with
  | nil => simp [words]
  | cons t ts ih =>
    cases ts with
    | nil => simp
    | cons s ts =>
      rw [List.intercalate_cons_cons, List.append_assoc, List.singleton_append, words_append, ih, ← List.flatMap_cons]

theorem words_fmtVec {toks : List Str} (h : ∀ t ∈ toks, Clean t) : words (fmtVec [' '] toks) = toks := by
  unfold fmtVec
  rw [words_intercalate, List.flatMap_map]
  have : ∀ t ∈ toks, words (pad ((toks.map List.length).foldr max 0) t) = [t] := fun t ht => words_pad (h t ht) _
  rw [List.flatMap_congr this]
  simp

theorem words_row {cells : List (List Str)} (h : ∀ c ∈ cells, ∀ t ∈ c, Clean t) :
    words ([' '].intercalate (cells.map (fmtVec [' ']))) = cells.flatten := by
  rw [words_intercalate, List.flatMap_map, List.flatMap_congr fun c hc => words_fmtVec (h c hc)]
  simp

/-- Stripping does not change the words of a line without line ends. -/
theorem words_strip {l : Str} (h : '\n' ∉ l) (h' : '\r' ∉ l) : words (strip l) = words l := by
  have hb : ∀ c ∈ l, isBlank c = true → c = ' ' := by
    intro c hc hb
    simp only [isBlank, Bool.or_eq_true, decide_eq_true_eq] at hb
    rcases hb with (rfl | rfl) | rfl
    · rfl
    · exact absurd hc h'
    · exact absurd hc h
  have left : ∀ l : Str, (∀ c ∈ l, isBlank c = true → c = ' ') → words (l.dropWhile isBlank) = words l := by
    intro l
    induction l with
    | nil => intro _; rfl
    | cons c l ih =>
      intro hb
      rw [List.dropWhile_cons]
      split
      · rename_i hc
        rw [hb c (by simp) hc, words_blank]
        exact ih fun c hc => hb c (List.mem_cons_of_mem _ hc)
      · rfl
  have right : ∀ l : Str, (∀ c ∈ l, isBlank c = true → c = ' ') → words (l.dropWhile isBlank).reverse = words l.reverse := by
    intro l
    induction l with
    | nil => intro _; rfl
    | cons c l ih =>
      intro hb
      rw [List.dropWhile_cons]
      split
      · rename_i hc
        rw [hb c (by simp) hc, List.reverse_cons, words_append_blank]
        exact ih fun c hc => hb c (List.mem_cons_of_mem _ hc)
      · rfl
  unfold strip
  rw [right, List.reverse_reverse, left l hb]
  intro c hc
  exact hb c ((List.dropWhile_sublist _).subset (List.mem_reverse.1 hc))

theorem splitLine_words {l : Str} (h : '\n' ∉ l) (h' : '\r' ∉ l) (hh : '#' ∉ l) : splitLine none l = words l := by
  unfold splitLine
  rw [takeWhile_hash hh]
  have := words_strip h h'
  dsimp only
  split
  · rename_i h0
    rw [← this, h0]
    rfl
  · exact this

theorem head_intercalate {sep t : Str} (ht : t ≠ []) (ts : List Str) : (sep.intercalate (t :: ts)).head? = t.head? := by
  cases ts with
  | nil => simp
  | cons s ts =>
    rw [List.intercalate_cons_cons, List.append_assoc, List.head?_append_of_ne_nil _ ht]

theorem getLast_intercalate {sep : Str} {ts : List Str} (hne : ts ≠ []) (h : ∀ t ∈ ts, t ≠ []) :
    ∃ t ∈ ts, (sep.intercalate ts).getLast? = t.getLast? := by
  induction ts with
  | nil => exact absurd rfl hne
  | cons t ts ih =>
    cases ts with
    | nil => exact ⟨t, by simp, by simp⟩
    | cons s ts =>
      obtain ⟨q, hq, h1⟩ := ih (by simp) fun t ht => h t (List.mem_cons_of_mem _ ht)
      refine ⟨q, List.mem_cons_of_mem _ hq, ?_⟩
      rw [List.intercalate_cons_cons, List.getLast?_append, h1]
      have : q.getLast? ≠ none := by
        rw [ne_eq, List.getLast?_eq_none_iff]
        exact h q (List.mem_cons_of_mem _ hq)
      cases hx : q.getLast? with
      | none => exact absurd hx this
      | some c => rfl

theorem mem_intercalate {sep : Str} {ts : List Str} {c : Char} (h : c ∈ sep.intercalate ts) : c ∈ sep ∨ ∃ t ∈ ts, c ∈ t := by
  induction ts with
  | nil => simp at h
  | cons t ts ih =>
    cases ts with
    | nil => exact .inr ⟨t, by simp, by simpa using h⟩
    | cons s ts =>
      rw [List.intercalate_cons_cons, List.mem_append, List.mem_append] at h
      rcases h with (h | h) | h
      · exact .inr ⟨t, by simp, h⟩
      · exact .inl h
      · rcases ih h with h | ⟨q, hq, h⟩
        · exact .inl h
        · exact .inr ⟨q, List.mem_cons_of_mem _ hq, h⟩

theorem intercalate_ne_nil {sep : Str} {ts : List Str} (hne : ts ≠ []) (h : ∀ t ∈ ts, t ≠ []) : sep.intercalate ts ≠ [] := by
  obtain ⟨t, ht, h1⟩ := getLast_intercalate (sep := sep) hne h
  intro h0
  rw [h0] at h1
  exact h t ht (List.getLast?_eq_none_iff.1 h1.symm)

/-- A line of clean tokens separated by single blanks. -/
theorem splitLine_tokens {ts : List Str} (hne : ts ≠ []) (h : ∀ t ∈ ts, Clean t) : splitLine (some ' ') ([' '].intercalate ts) = ts := by
  rw [splitLine_tight]
  · apply List.splitOn_intercalate _ _ hne
    intro t ht hc
    exact (h t ht).chars _ hc (by decide)
  · constructor
    · intro c hc
      match ts, hne with
      | t :: ts, _ =>
        have ht := h t (by simp)
        rw [head_intercalate ht.nonempty] at hc
        exact ht.chars c (List.mem_of_mem_head? hc)
    · intro c hc
      obtain ⟨t, ht, h1⟩ := getLast_intercalate (sep := [' ']) hne fun t ht => (h t ht).nonempty
      rw [h1] at hc
      exact (h t ht).chars c (List.mem_of_getLast? hc)
  · exact intercalate_ne_nil hne fun t ht => (h t ht).nonempty
  · intro hc
    rcases mem_intercalate hc with hc | ⟨t, ht, hc⟩
    · revert hc; decide
    · exact (h t ht).chars _ hc (by decide)

/-- A text of lines, each ended by a line feed. -/
theorem splitOn_lines {ls : List Str} (h : ∀ l ∈ ls, '\n' ∉ l) : (ls.flatMap fun l => l ++ ['\n']).splitOn '\n' = ls ++ [[]] := by
  induction ls with
  | nil => rfl
  | cons l ls ih =>
    rw [List.flatMap_cons, List.append_assoc, List.singleton_append,
      List.splitOn_append_cons_self_of_not_mem (h l (by simp)), ih fun l hl => h l (List.mem_cons_of_mem _ hl)]
    rfl

theorem valueLines_lines {delim : Option Char} {ls : List Str} (h : ∀ l ∈ ls, '\n' ∉ l) (hv : ∀ l ∈ ls, splitLine delim l ≠ []) :
    valueLines delim (ls.flatMap fun l => l ++ ['\n']) = ls.map (splitLine delim) := by
  unfold valueLines
  rw [splitOn_lines h, List.map_append, List.filter_append]
  have : ([([] : Str)].map (splitLine delim)).filter (fun r => decide (r ≠ [])) = [] := by
    simp [splitLine, strip]
  rw [this, List.append_nil, List.filter_eq_self]
  intro r hr
  obtain ⟨l, hl, rfl⟩ := List.mem_map.1 hr
  simpa using hv l hl

/-- A table of clean tokens. -/
theorem valueLines_tokens {rows : List (List Str)} (hne : ∀ r ∈ rows, r ≠ []) (h : ∀ r ∈ rows, ∀ t ∈ r, Clean t) :
    valueLines (some ' ') (rows.flatMap fun r => [' '].intercalate r ++ ['\n']) = rows := by
  have hs : ∀ r ∈ rows, splitLine (some ' ') ([' '].intercalate r) = r := fun r hr => splitLine_tokens (hne r hr) (h r hr)
  have := valueLines_lines (delim := some ' ') (ls := rows.map fun r => [' '].intercalate r) (by
      intro l hl hc
      obtain ⟨r, hr, rfl⟩ := List.mem_map.1 hl
      rcases mem_intercalate hc with hc | ⟨t, ht, hc⟩
      · revert hc; decide
      · exact (h r hr t ht).chars _ hc (by decide)) (by
      intro l hl
      obtain ⟨r, hr, rfl⟩ := List.mem_map.1 hl
      rw [hs r hr]
      exact hne r hr)
  rw [List.flatMap_map, List.map_map] at this
  rw [this]
  conv_rhs => rw [← List.map_id rows]
  exact List.map_congr_left hs

theorem readNat_printNat (k : ℕ) : readNat (printNat k) = some k := by
  unfold readNat printNat
  have h : (Nat.toDigits 10 k).all Char.isDigit = true :=
    List.all_eq_true.2 fun c hc => Nat.isDigit_of_mem_toDigits (by norm_num) (by norm_num) hc
  rw [if_pos ⟨Nat.toDigits_ne_nil, h⟩, Nat.ofDigitChars_ten_toDigits]

theorem readNum_print {α : Type} {F : NumFmt α} (hF : F.Ok) (v : α) : readNum F (F.print v) = some (F.round v) := by
  unfold readNum
  rw [strip_tight (clean_print hF v).tight, hF.read_print]

theorem readNum_pad {α : Type} {F : NumFmt α} (hF : F.Ok) (v : α) (k : ℕ) :
    readNum F (List.replicate k ' ' ++ F.print v) = some (F.round v) := by
  unfold readNum
  rw [strip_pad (clean_print hF v), hF.read_print]

end Nmpc.Text
