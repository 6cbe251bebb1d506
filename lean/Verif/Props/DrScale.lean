import Verif.Model.DrScale
import Verif.Props.Factors

/-!
# Property C136: the form in which the scales of delayed rejection are given
-/

set_option linter.unusedSectionVars false

namespace Verif
variable {F : Type} [PyFloat F] {n : ℕ}

theorem drscaleAt_mem {l : List F} {ii : ℕ} {s : F} (h : drscaleAt l ii = .ok s) : s ∈ l := by
  unfold drscaleAt pyGet at h
  split at h
  · rename_i x hx
    cases h
    exact List.mem_of_getElem? hx
  · cases h

theorem invAt_numbers {d : DrScale F} (hd : ∀ l, d ≠ .intArray l)
    (hz : ∀ l, d = .list l → ∀ s ∈ l, PyFloat.beq s (lit 0) = false) (ii : ℕ) :
    d.invAt ii = (do let s ← drscaleAt d.values ii; .ok (lit 1 / s)) := by
  unfold DrScale.invAt
  cases h : drscaleAt d.values ii with
  | error e => rfl
  | ok s =>
    cases d with
    | list l =>
      have := hz l rfl s (drscaleAt_mem h)
      simp only [ok_bind, this]
      rfl
    | floatArray l => rfl
    | intArray l => exact absurd rfl (hd l)

theorem rdrSetupLoopOf_numbers (L : Lapack F) {d : DrScale F} (hd : ∀ l, d ≠ .intArray l)
    (hz : ∀ l, d = .list l → ∀ s ∈ l, PyFloat.beq s (lit 0) = false) :
    ∀ (k ii : ℕ) (R : Mat F n), rdrSetupLoopOf L d k ii R = rdrSetupLoop L d.values k ii R
  | 0, _, _ => rfl
  | k + 1, ii, R => by
    unfold rdrSetupLoopOf rdrSetupLoop
    rw [invAt_numbers hd hz]
    cases h : drscaleAt d.values ii with
    | error e => rfl
    | ok s =>
      simp only [ok_bind, rdrSetupLoopOf_numbers L hd hz k]

theorem drFactorLoopOf_numbers {d : DrScale F} (hd : ∀ l, d ≠ .intArray l)
    (hz : ∀ l, d = .list l → ∀ s ∈ l, PyFloat.beq s (lit 0) = false) :
    ∀ (k ii : ℕ) (R iR : Mat F n), drFactorLoopOf d k ii R iR = drFactorLoop d.values k ii R iR
  | 0, _, _, _ => rfl
  | k + 1, ii, R, iR => by
    unfold drFactorLoopOf drFactorLoop
    rw [invAt_numbers hd hz]
    cases h : drscaleAt d.values ii with
    | error e => rfl
    | ok s =>
      simp only [ok_bind, drFactorLoopOf_numbers hd hz k]

/-- **C136, full statement:** the factors of the delayed rejection stages, in the set-up of a run and after an
adaptation, depend only on the numbers in `drscale`, not on whether they come as a list, an array of floating-point
numbers or an array of integers.  **Proved here:** this holds for lists without zeros and arrays of floating-point
numbers.  For arrays of integers see `C136_integers_refuted`. -/
theorem C136_form_partial (L : Lapack F) (R : Mat F n) (ntry : ℕ) (RDR : Option (List (Mat F n)))
    {d d' : DrScale F} (hv : d.values = d'.values)
    (hd : ∀ l, d ≠ .intArray l) (hd' : ∀ l, d' ≠ .intArray l)
    (hz : ∀ s ∈ d.values, PyFloat.beq s (lit 0) = false) :
    setupRDRMatrixOf L R ntry d RDR = setupRDRMatrixOf L R ntry d' RDR ∧
    updateDelayedRejectionOf L R ntry d = updateDelayedRejectionOf L R ntry d' := by
  have z : ∀ l, d = .list l → ∀ s ∈ l, PyFloat.beq s (lit 0) = false := fun l e s hs => hz s (by rw [e]; exact hs)
  have z' : ∀ l, d' = .list l → ∀ s ∈ l, PyFloat.beq s (lit 0) = false :=
    fun l e s hs => hz s (by rw [hv, e]; exact hs)
  constructor
  · cases RDR with
    | some r => rfl
    | none =>
      unfold setupRDRMatrixOf
      simp only [rdrSetupLoopOf_numbers L hd z, rdrSetupLoopOf_numbers L hd' z', hv]
  · unfold updateDelayedRejectionOf
    simp only [drFactorLoopOf_numbers hd z, drFactorLoopOf_numbers hd' z', hv]

/-- The factors for lists without zeros and arrays of floating-point numbers are those the other properties
speak about. -/
theorem C136_model_partial (L : Lapack F) (R : Mat F n) (ntry : ℕ) (RDR : Option (List (Mat F n)))
    {d : DrScale F} (hd : ∀ l, d ≠ .intArray l)
    (hz : ∀ l, d = .list l → ∀ s ∈ l, PyFloat.beq s (lit 0) = false) :
    setupRDRMatrixOf L R ntry d RDR = setupRDRMatrix L R ntry d.values RDR ∧
    updateDelayedRejectionOf L R ntry d = updateDelayedRejection L R ntry d.values := by
  constructor
  · cases RDR with
    | some r => rfl
    | none =>
      unfold setupRDRMatrixOf setupRDRMatrix
      simp only [rdrSetupLoopOf_numbers L hd hz]
  · unfold updateDelayedRejectionOf updateDelayedRejection
    simp only [drFactorLoopOf_numbers hd hz]

theorem invAt_int {l : List F} (hl : l ≠ []) (ii : ℕ) : (DrScale.intArray l).invAt ii = .error .valueError := by
  have h : ∃ s, drscaleAt l ii = .ok s := by
    have : 0 < l.length := List.length_pos_iff.2 hl
    unfold drscaleAt pyGet
    rw [List.getElem?_eq_getElem (show min ii l.length - 1 < l.length by omega)]
    exact ⟨_, rfl⟩
  obtain ⟨s, hs⟩ := h
  unfold DrScale.invAt
  rw [show (DrScale.intArray l).values = l from rfl, hs]
  rfl

/-- **Refutation of C136:** with scales given as an array of integers, as `np.array([5, 4, 3])`, every set-up for
two or more stages raises `ValueError` if no factors are given; with factors given, every adaptation does. -/
theorem C136_integers_refuted (L : Lapack F) (R : Mat F n) {iR : Mat F n} (hL : L.inverse R = some iR) {ntry : ℕ}
    (hn : 2 ≤ ntry) {l : List F} (hl : l ≠ []) :
    setupRDRMatrixOf L R ntry (.intArray l) none = .error .valueError ∧
    updateDelayedRejectionOf L R ntry (.intArray l) = .error .valueError := by
  obtain ⟨k, rfl⟩ : ∃ k, ntry = k + 2 := ⟨ntry - 2, by omega⟩
  constructor
  · unfold setupRDRMatrixOf
    simp only [hL, show k + 2 - 1 = k + 1 from rfl, rdrSetupLoopOf, invAt_int hl]
    rfl
  · unfold updateDelayedRejectionOf
    rw [if_pos (by omega)]
    simp only [hL, show k + 2 - 1 = k + 1 from rfl, drFactorLoopOf, invAt_int hl]
    rfl

/-! ### Concrete values -/

/-- the identity is its own inverse -/
def drToyLapack : Lapack ℚ := ⟨fun M => some M, fun M => some M⟩

/-- list and array of floats: the second factor is a fifth of the first -/
example : (∃ l il, setupRDRMatrixOf (n := 1) drToyLapack (fun _ _ => 1) 2 (.list [5, 4, 3]) none =
      .ok (fun _ _ => 1, l, il) ∧ l.map (fun M => M 0 0) = [1, 1/5]) ∧
    setupRDRMatrixOf (n := 1) drToyLapack (fun _ _ => 1) 2 (.list [5, 4, 3]) none =
      setupRDRMatrixOf (n := 1) drToyLapack (fun _ _ => 1) 2 (.floatArray [5, 4, 3]) none :=
  ⟨⟨_, _, rfl, by decide +kernel⟩, (C136_form_partial drToyLapack _ 2 none rfl (by simp) (by simp)
    (by decide +kernel)).1⟩

example : setupRDRMatrixOf (n := 1) drToyLapack (fun _ _ => 1) 2 (.intArray [5, 4, 3]) none = .error .valueError :=
  (C136_integers_refuted drToyLapack _ rfl le_rfl (by simp)).1

end Verif
