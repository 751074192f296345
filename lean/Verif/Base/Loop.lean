import Mathlib.Data.Nat.Init

/-!
# Loops and outcomes
-/

namespace Nmpc

/-- Outcome of running a piece of the C++ code. -/
inductive Res (ρ : Type) where
  /-- normal return -/
  | ok (r : ρ)
  /-- `throw std::invalid_argument` -/
  | invalidArgument
  /-- `throw std::runtime_error` -/
  | runtimeError
  /-- any other exception (for example `std::bad_function_call`) -/
  | otherException
  /-- undefined behaviour or failed assertion (out-of-range access, size mismatch, …) -/
  | ub
  /-- does not terminate -/
  | diverge
  deriving DecidableEq, Repr

/-- Sequencing. -/
def Res.bind {ρ τ : Type} : Res ρ → (ρ → Res τ) → Res τ
  | .ok r, f => f r
  | .invalidArgument, _ => .invalidArgument
  | .runtimeError, _ => .runtimeError
  | .otherException, _ => .otherException
  | .ub, _ => .ub
  | .diverge, _ => .diverge

/-- Map over the normal result. -/
def Res.map {ρ τ : Type} (f : ρ → τ) (r : Res ρ) : Res τ := r.bind fun a => .ok (f a)

@[simp] theorem Res.bind_ok {ρ τ : Type} (r : ρ) (f : ρ → Res τ) : (Res.ok r).bind f = f r := rfl
@[simp] theorem Res.bind_invalidArgument {ρ τ : Type} (f : ρ → Res τ) : (Res.invalidArgument : Res ρ).bind f = .invalidArgument := rfl
@[simp] theorem Res.bind_runtimeError {ρ τ : Type} (f : ρ → Res τ) : (Res.runtimeError : Res ρ).bind f = .runtimeError := rfl
@[simp] theorem Res.bind_otherException {ρ τ : Type} (f : ρ → Res τ) : (Res.otherException : Res ρ).bind f = .otherException := rfl
@[simp] theorem Res.bind_ub {ρ τ : Type} (f : ρ → Res τ) : (Res.ub : Res ρ).bind f = .ub := rfl
@[simp] theorem Res.bind_diverge {ρ τ : Type} (f : ρ → Res τ) : (Res.diverge : Res ρ).bind f = .diverge := rfl

/-- Unbounded loop: run `step`; `inl` continues, `inr` leaves the loop.  `none` means that the loop
runs forever. -/
def loopM {σ ρ : Type} (step : σ → σ ⊕ ρ) (s : σ) : Option ρ :=
  match step s with
  | .inl s' => loopM step s'
  | .inr r => some r
partial_fixpoint

theorem loopM_inl {σ ρ : Type} {step : σ → σ ⊕ ρ} {s s' : σ} (h : step s = .inl s') :
    loopM step s = loopM step s' := by
  rw [loopM.eq_def, h]

theorem loopM_inr {σ ρ : Type} {step : σ → σ ⊕ ρ} {s : σ} {r : ρ} (h : step s = .inr r) :
    loopM step s = some r := by
  rw [loopM.eq_def, h]

/-- Partial correctness rule for loops. -/
theorem loopM_invariant {σ ρ : Type} {step : σ → σ ⊕ ρ} (I : σ → Prop) (Q : ρ → Prop)
    (hI : ∀ s s', I s → step s = .inl s' → I s')
    (hQ : ∀ s r, I s → step s = .inr r → Q r)
    {s : σ} {r : ρ} (hs : I s) (hr : loopM step s = some r) : Q r := by
  have key : ∀ s r, loopM step s = some r → I s → Q r := by
    refine loopM.partial_correctness step (fun s r => I s → Q r) ?_
    intro f ih s r h hs
    split at h
    · rename_i s' h'
      exact ih _ _ h (hI _ _ hs h')
    · rename_i r' h'
      cases h
      exact hQ _ _ hs h'
  exact key s r hr hs

/-- Termination rule: a natural-number measure that decreases on every continuing iteration. -/
theorem loopM_terminates {σ ρ : Type} {step : σ → σ ⊕ ρ} (I : σ → Prop) (μ : σ → ℕ)
    (hI : ∀ s s', I s → step s = .inl s' → I s' ∧ μ s' < μ s)
    {s : σ} (hs : I s) : ∃ r, loopM step s = some r := by
  induction hn : μ s using Nat.strong_induction_on generalizing s with
  | _ n ih =>
    cases h : step s with
    | inl s' =>
      obtain ⟨h1, h2⟩ := hI s s' hs h
      rw [loopM_inl h]
      exact ih (μ s') (hn ▸ h2) h1 rfl
    | inr r => exact ⟨r, loopM_inr h⟩

/-- Iterating the continuing branch `k` times. -/
def iterStep {σ ρ : Type} (step : σ → σ ⊕ ρ) : ℕ → σ → Option σ
  | 0, s => some s
  | k + 1, s => match step s with
    | .inl s' => iterStep step k s'
    | .inr _ => none

/-- A loop that never leaves an invariant set through `inr` diverges. -/
theorem loopM_diverges {σ ρ : Type} {step : σ → σ ⊕ ρ} (I : σ → Prop)
    (hI : ∀ s, I s → ∃ s', step s = .inl s' ∧ I s') {s : σ} (hs : I s) :
    loopM step s = none := by
  cases h : loopM step s with
  | none => rfl
  | some r =>
    exfalso
    exact loopM_invariant I (fun _ => False)
      (fun s s' h1 h2 => by
        obtain ⟨s'', h3, h4⟩ := hI s h1
        rw [h2] at h3; cases h3; exact h4)
      (fun s r h1 h2 => by
        obtain ⟨s'', h3, _⟩ := hI s h1
        rw [h2] at h3; cases h3) hs h

/-- Two loops related step by step give related results. -/
theorem loopM_rel {σ τ ρ π : Type} {f : σ → σ ⊕ ρ} {g : τ → τ ⊕ π} (R : σ → τ → Prop)
    (Q : ρ → π → Prop)
    (hstep : ∀ s t, R s t →
      (∃ s' t', f s = .inl s' ∧ g t = .inl t' ∧ R s' t') ∨
      (∃ r p, f s = .inr r ∧ g t = .inr p ∧ Q r p))
    {s : σ} {t : τ} (hst : R s t) :
    (loopM f s = none ∧ loopM g t = none) ∨
      ∃ r p, loopM f s = some r ∧ loopM g t = some p ∧ Q r p := by
  cases hf : loopM f s with
  | some r =>
    right
    have : ∀ s r, loopM f s = some r → ∀ t, R s t → ∃ p, loopM g t = some p ∧ Q r p := by
      refine loopM.partial_correctness f
        (fun s r => ∀ t, R s t → ∃ p, loopM g t = some p ∧ Q r p) ?_
      intro F ih s r h t hst
      rcases hstep s t hst with ⟨s', t', h1, h2, h3⟩ | ⟨r', p, h1, h2, h3⟩
      · rw [h1] at h
        obtain ⟨p, hp, hq⟩ := ih _ _ h _ h3
        exact ⟨p, by rw [loopM_inl h2, hp], hq⟩
      · rw [h1] at h
        cases h
        exact ⟨p, loopM_inr h2, h3⟩
    obtain ⟨p, hp, hq⟩ := this s r hf t hst
    exact ⟨r, p, rfl, hp, hq⟩
  | none =>
    left
    refine ⟨rfl, ?_⟩
    cases hg : loopM g t with
    | none => rfl
    | some p =>
      exfalso
      have : ∀ t p, loopM g t = some p → ∀ s, R s t → ∃ r, loopM f s = some r := by
        refine loopM.partial_correctness g (fun t p => ∀ s, R s t → ∃ r, loopM f s = some r) ?_
        intro G ih t p h s hst
        rcases hstep s t hst with ⟨s', t', h1, h2, h3⟩ | ⟨r', p, h1, h2, h3⟩
        · rw [h2] at h
          obtain ⟨r, hr⟩ := ih _ _ h _ h3
          exact ⟨r, by rw [loopM_inl h1, hr]⟩
        · exact ⟨r', loopM_inr h1⟩
      obtain ⟨r, hr⟩ := this t p hg s hst
      rw [hf] at hr; cases hr

/-- A loop used inside a function with outcomes: running forever is `diverge`. -/
def loopR {σ ρ : Type} (step : σ → σ ⊕ Res ρ) (s : σ) : Res ρ :=
  match loopM step s with
  | some r => r
  | none => .diverge

/-- `for (i = 0; i < n; i++) s = body(i, s)`. -/
def forUp {σ : Type} : ℕ → (ℕ → σ → σ) → σ → σ
  | 0, _, s => s
  | n + 1, body, s => body n (forUp n body s)

/-- `for (i = n - 1; i >= 0; i--) s = body(i, s)`. -/
def forDown {σ : Type} : ℕ → (ℕ → σ → σ) → σ → σ
  | 0, _, s => s
  | n + 1, body, s => forDown n body (body n s)

/-- Invariant rule for `forUp`. -/
theorem forUp_invariant {σ : Type} (I : ℕ → σ → Prop) {n : ℕ} {body : ℕ → σ → σ} {s : σ}
    (h0 : I 0 s) (hstep : ∀ i s, i < n → I i s → I (i + 1) (body i s)) :
    I n (forUp n body s) := by
  suffices ∀ k, k ≤ n → I k (forUp k body s) from this n (Nat.le_refl n)
  intro k
  induction k with
  | zero => intro _; exact h0
  | succ k ih => intro hk; exact hstep k _ (by omega) (ih (by omega))

/-- Invariant rule for `forDown`. -/
theorem forDown_invariant {σ : Type} (I : ℕ → σ → Prop) {n : ℕ} {body : ℕ → σ → σ} {s : σ}
    (h0 : I n s) (hstep : ∀ i s, i < n → I (i + 1) s → I i (body i s)) :
    I 0 (forDown n body s) := by
  induction n generalizing s with
  | zero => exact h0
  | succ k ih =>
    exact ih (hstep k s (by omega) h0) (fun i s hi => hstep i s (by omega))

end Nmpc
