import Verif.Model.IntCov
import Verif.Props.Report

/-!
# Property C135: the reported covariance if the user's covariance is an array of integers
-/

set_option linter.unusedSectionVars false

namespace Verif
variable {F σ : Type} [PyFloat F] {N m : ℕ} {flags : Fin N → Bool}

/-- **C135, full statement:** also if the user gives the covariance as an array of integers, the block of the
sampled parameters in `results['qcovorig']` is the covariance `results['qcov']` of the proposal at the
end of the run.  **Proved here:** the block holds the numbers of `results['qcov']` converted to integers; so
the statement holds if they are integers already.  See `C135_integers_refuted`, `C135_restart_refuted`. -/
theorem C135_block_partial {U : UserFuns F N (nS flags) m} {o : Obj F flags m}
    {G : Rng σ F} {L : Lapack F} {fuel : ℕ} {rng : σ} {up : Bool} {out : RunOut F σ flags m}
    (h : runSimulation U G L fuel o rng up = .ok out) (trunc : F → F) :
    (reportOfInt trunc out).size = (reportOf out).size ∧
    (∀ a b i j, (((List.finRange N).filter flags).map (fun k => k.val))[i]? = some a →
      (((List.finRange N).filter flags).map (fun k => k.val))[j]? = some b →
      ∃ (hi : i < nS flags) (hj : j < nS flags) (ha : a < (reportOfInt trunc out).size)
        (hb : b < (reportOfInt trunc out).size),
        (reportOfInt trunc out).qcovorig ⟨a, ha⟩ ⟨b, hb⟩ = trunc (out.results.qcov ⟨i, hi⟩ ⟨j, hj⟩)) ∧
    ∀ a b : Fin (reportOf out).size,
      (∀ k : Fin N, flags k = true → k.val ≠ a.val) ∨ (∀ k : Fin N, flags k = true → k.val ≠ b.val) →
        (reportOfInt trunc out).qcovorig a b = (reportOf out).qcovorig a b := by
  have hblock := (C74_qcovorig h).1
  have hinj : Function.Injective fun i => (parindOf flags i).val := fun i j hij =>
    parindOf_injective flags (Fin.ext hij)
  have hout : ∀ a : ℕ, (∀ k : Fin N, flags k = true → k.val ≠ a) → ∀ i, (parindOf flags i).val ≠ a :=
    fun a ha i => ha _ (flags_parindOf i)
  refine ⟨rfl, fun a b i j ha hb => ?_, fun a b hab => ?_⟩
  · obtain ⟨hi, hj, ha', hb', -⟩ := hblock a b i j ha hb
    refine ⟨hi, hj, ha', hb', ?_⟩
    obtain ⟨_, rfl⟩ := List.getElem?_eq_some_iff.1 ha
    obtain ⟨_, rfl⟩ := List.getElem?_eq_some_iff.1 hb
    have ei : (parindOf flags ⟨i, hi⟩).val = (((List.finRange N).filter flags).map fun k => k.val)[i] := by
      rw [List.getElem_map]; rfl
    have ej : (parindOf flags ⟨j, hj⟩).val = (((List.finRange N).filter flags).map fun k => k.val)[j] := by
      rw [List.getElem_map]; rfl
    exact ixAssign_block hinj ei ej
  · exact (ixAssign_other (hab.imp (hout _) (hout _))).trans (ixAssign_other (hab.imp (hout _) (hout _))).symm

/-- **Refutation of C135, its effect on a later run:** if the proposal covariance at the end of the run is converted
to zero (its entries lie strictly between -1 and 1), no run with two or more sampled parameters that is given
`results['qcovorig']` as its covariance gets past the set-up. -/
theorem C135_restart_refuted {U U2 : UserFuns F N (nS flags) m} {o o2 : Obj F flags m}
    {G G2 : Rng σ F} {L L2 : Lapack F} {fuel fuel2 : ℕ} {rng rng2 : σ} {up : Bool}
    {out : RunOut F σ flags m} (h : runSimulation U G L fuel o rng up = .ok out) {trunc : F → F}
    (hz : ∀ i j, trunc (out.results.qcov i j) = lit 0) (hn : 2 ≤ nS flags)
    (hL : L2.cholesky (n := nS flags) (fun _ _ => lit 0) = none)
    (hq : o2.extra.qcov = some (.matrix (reportOfInt trunc out).size (reportOfInt trunc out).qcovorig))
    (hj : o2.extra.jsonRestart = none) (out2 : RunOut F σ flags m) :
    runSimulation U2 G2 L2 fuel2 o2 rng2 false ≠ .ok out2 := by
  intro h2
  obtain ⟨o1, I, s0, h1, _, _, h4, _⟩ := runSimulation_ok h2
  obtain ⟨_, _, _, _, _, _, _, hjs, hin, _⟩ := setup_fresh h1
  obtain rfl := hjs hj
  obtain ⟨_, ⟨R, hR, _⟩, _⟩ := initCovState_ok (initializeSimulation_cov hin)
  rw [hq] at hR
  obtain ⟨-, hblock, -⟩ := C135_block_partial h trunc
  have e : ∀ i, (((List.finRange N).filter flags).map fun k => k.val)[i.val]? =
      some (parindOf flags i).val := by
    intro i
    change ((sampledIdx flags).map fun k => k.val)[i.val]? = _
    rw [List.getElem?_map, List.getElem?_eq_getElem i.isLt]
    rfl
  have hk : ∀ i, (parindOf flags i).val < (reportOfInt trunc out).size := fun i => by
    obtain ⟨_, _, ha, _⟩ := hblock _ _ i.val i.val (e i) (e i)
    exact ha
  have hqc : ixRestrict (reportOfInt trunc out).qcovorig (parindOf flags) = .ok fun _ _ => lit 0 := by
    unfold ixRestrict
    rw [dif_pos hk]
    congr 1
    funext i j
    obtain ⟨_, _, _, _, e'⟩ := hblock _ _ i.val j.val (e i) (e j)
    exact e'.trans (hz _ _)
  have hsize : (reportOfInt trunc out).size ≠ 1 := by
    intro h1
    have a0 := hk ⟨0, by omega⟩
    have a1 := hk ⟨1, by omega⟩
    have : (⟨0, by omega⟩ : Fin (nS flags)) = ⟨1, by omega⟩ := parindOf_injective flags (Fin.ext (by omega))
    exact absurd (congrArg Fin.val this) (by simp)
  unfold setupCovarianceMatrix setupRMatrix at hR
  dsimp only at hR
  rw [hqc, ok_bind, if_neg hsize, if_neg (by omega), hL] at hR
  cases hR

theorem truncRat_small {x : ℚ} (h0 : -1 < x) (h1 : x < 1) : truncRat x = 0 := by
  unfold truncRat
  split
  · rename_i h
    rw [Int.floor_eq_zero_iff.2 ⟨h, h1⟩]; rfl
  · rename_i h
    rw [Int.ceil_eq_zero_iff.2 ⟨h0, by linarith⟩]; rfl

/-! ### Concrete runs -/

/-- as `Toy.lapack`, but the factorisation fails if a diagonal entry is not positive -/
def Toy.lapackPos : Lapack ℚ := ⟨fun M => if ∀ i, 0 < M i i then some M else none, fun M => some M⟩

/-- **Refutation of C135:** an adaptive run whose covariance was given as the identity with integer entries
reports the variances `164/625` and `389/625` in `results['qcov']` and 0 in `results['qcovorig']`; a run given
that covariance does not start. -/
theorem C135_integers_refuted : ∃ out, Toy.adaptive = .ok out ∧
    out.obj.extra.qcov = some (.matrix 3 fun i j => if i = j then 1 else 0) ∧
    List.ofFn (fun i => List.ofFn (out.results.qcov i)) = [[164/625, -2/5], [-2/5, 389/625]] ∧
    List.ofFn (fun i => List.ofFn ((reportOfInt truncRat out).qcovorig i)) = [[0, 0, 0], [0, 1, 0], [0, 0, 0]] ∧
    ∀ (fuel : ℕ) (rng : ℕ) (out2 : RunOut ℚ ℕ Toy.flags 1), runSimulation Toy.user Toy.rng Toy.lapackPos fuel
      { Toy.obj .dram 5 with extra := { Toy.extra with
          qcov := some (.matrix (reportOfInt truncRat out).size (reportOfInt truncRat out).qcovorig) } } rng false
      ≠ .ok out2 := by
  obtain ⟨out, h, h1⟩ := exists_ok_and (x := Toy.adaptive)
    (fun out => decide (List.ofFn (fun i => List.ofFn (out.results.qcov i)) = [[164/625, -2/5], [-2/5, 389/625]] ∧
      List.ofFn (fun i => List.ofFn ((reportOfInt truncRat out).qcovorig i)) = [[0, 0, 0], [0, 1, 0], [0, 0, 0]] ∧
      ∀ i j, -1 < out.results.qcov i j ∧ out.results.qcov i j < 1)) (by decide +kernel)
  obtain ⟨a, b, c⟩ := of_decide_eq_true h1
  refine ⟨out, h, ?_, a, b, fun fuel rng out2 => ?_⟩
  · obtain ⟨o1, I, s0, h1, _, _, _, h5⟩ := runSimulation_ok h
    obtain ⟨_, _, _, _, _, _, _, hjs, _⟩ := setup_fresh h1
    rw [h5]
    have := hjs rfl
    subst this
    rfl
  · exact C135_restart_refuted h (fun i j => truncRat_small (c i j).1 (c i j).2) (by decide) (by decide) rfl rfl out2

/-- a run whose covariance stays integral: 1 on the diagonal -/
example : ∃ out, Toy.run .mh 5 = .ok out ∧
    List.ofFn (fun i => List.ofFn ((reportOfInt truncRat out).qcovorig i)) = [[1, 0, 0], [0, 1, 0], [0, 0, 1]] := by
  obtain ⟨out, h, h1⟩ := exists_ok_and (x := Toy.run .mh 5)
    (fun out => decide (List.ofFn (fun i => List.ofFn ((reportOfInt truncRat out).qcovorig i)) =
      [[1, 0, 0], [0, 1, 0], [0, 0, 1]])) (by decide +kernel)
  exact ⟨out, h, of_decide_eq_true h1⟩

end Verif
