import Verif.Model.Mcmc
import Verif.Lemmas.XR
import Verif.Lemmas.Progress

/-! # A small problem over the extended reals, for the examples -/

namespace Verif.XRun

/-- one sampled parameter with finite limits -/
def flags : Fin 1 → Bool := fun _ => true

/-- Initial value 0, limits ±10, flat prior; adapted or not. -/
noncomputable def specs (adapt : Bool) : Fin 1 → ParamSpec XR := fun _ =>
  ⟨"a", .fin 0, .fin (-10), .fin 10, .fin 0, .pinf, true, 0, adapt⟩

/-- sum of squares `theta^2` -/
noncomputable def user : UserFuns XR 1 (nS flags) 1 where
  style1 := true
  sosFun _ v := .ok fun _ => v 0 * v 0
  priorFun _ _ _ := .fin 0

/-- every normal draw is one, every uniform draw one half -/
noncomputable def rng : Rng Unit XR := ⟨fun _ s => (fun _ => .fin 1, s), fun s => (.fin (1/2), s)⟩

/-- Target acceptance 1/4, adjustment `e`, initial variance `v`. -/
noncomputable def extra (v e : ℝ) : ExtraOpts XR (nS flags) :=
  ⟨.fin 10, [.fin 5], .fin (1/4), .fin (7/10), .fin e, some (.variances 1 fun _ => .fin v), none, none⟩

def data : Data := addDataSet {} (.array [5]) (.array [5])

/-- error variance one, also as the centre of its prior -/
noncomputable def settings : ModelSettings XR :=
  defineModelSettings (some [.fin 1]) none none none (some [.fin 1])

noncomputable def obj (a : OptArgs XR) (adapt : Bool := true) (v : ℝ := 1)
    (e : ℝ := 1) : Obj XR flags 1 :=
  newObj (specs adapt) (defineSimulationOptions a) (extra v e) settings data

theorem nS_flags : nS flags = 1 := by decide

theorem exists_of_safe {α : Type} {x : Except PyErr α} (h : Safe (fun _ => False) x) :
    ∃ a, x = .ok a := by
  cases x with
  | ok a => exact ⟨a, rfl⟩
  | error e => exact (h e rfl).elim

theorem settings_ok : ∃ ms1 ms2 M, checkDependentModelSettings settings data.n data.nbatch = .ok ms1 ∧
    checkWrtNsos ms1 1 = .ok ms2 ∧ toErrModel ms2 1 = .ok M := by
  have h1 : checkDependentModelSettings settings data.n data.nbatch = .ok
      ⟨some [.fin 1], some [.fin 5], some [.fin 1], some 1, [.fin 1], false⟩ := by
    simp [checkDependentModelSettings, settings, defineModelSettings, defaultN0, data, addDataSet,
      ModelSettings.s20Now, Data.nbatch, convertNumpyArrayTo2d, convertToNumpyArray, ofInt]
    rfl
  have h2 : ∃ ms2 M, checkWrtNsos (⟨some [.fin 1], some [.fin 5], some [.fin 1], some 1, [.fin 1], false⟩ :
      ModelSettings XR) 1 = .ok ms2 ∧ toErrModel ms2 1 = .ok M := ⟨_, _, rfl, rfl⟩
  exact ⟨_, _, _, h1, h2.choose_spec.choose_spec⟩

/-- the object with another initial covariance -/
noncomputable def objq (a : OptArgs XR) (adapt : Bool) (v e : ℝ) (q : Option (Qcov XR)) : Obj XR flags 1 :=
  newObj (specs adapt) (defineSimulationOptions a) { extra v e with qcov := q } settings data

theorem setup_okU (U : UserFuns XR 1 (nS flags) 1) (hU : Computes U.style1 U.sosFun) (L : Lapack XR) (a : OptArgs XR) (hn : 0 < a.nsimu) (had : a.adascale = none)
    (ad : Bool) (v e : ℝ) (q : Option (Qcov XR))
    (hq : q = none ∨ (∃ w, q = some (.variances 1 w)) ∨ ∃ M, q = some (.matrix 1 M))
    (hm : a.method = .dram ∨ a.method = .dr → ∀ R c : Mat XR (nS flags),
      setupRMatrix L (setupCovarianceMatrix q
        (fun k => setupPriorSigma (specs ad k).priorSigma) fun k => (specs ad k).theta0)
        (parindOf flags) = .ok (R, c) →
      Safe (fun _ => False) (setupRDRMatrix L R (defineSimulationOptions a).ntry.toNat [.fin 5] none)) :
    ∃ r, setupSimulator U L (objq a ad v e q) () false = .ok r := by
  apply exists_of_safe
  unfold setupSimulator
  rw [if_neg (by simp)]
  refine (Safe.ok _).bind fun o1 ho1 => ?_
  cases ho1
  refine Safe.bind ?_ fun I hI => ?_
  · unfold initializeSimulation
    obtain ⟨ms1, ms2, M, h1, h2, h3⟩ := settings_ok
    have h1' : checkDependentModelSettings (objq a ad v e q).ms (objq a ad v e q).data.n
      (objq a ad v e q).data.nbatch = .ok ms1 := h1
    rw [h1', ok_bind]
    refine Safe.bind ?_ fun _ _ => Safe.bind ?_ fun _ _ => Safe.bind ?_ fun c _ =>
      Safe.bind ?_ fun _ _ => Safe.bind ?_ fun ms hms => Safe.bind ?_ fun _ _ => .ok _
    · simp [scanLocal, flags]; exact .ok _
    · have e1 : (sampledIdx flags).all
          (fun k => PyFloat.le ((objq a ad v e q).specs k).minimum ((objq a ad v e q).specs k).maximum) = true := by
        simp [objq, newObj, specs]
      have e2 : isOutside (atParind flags fun k => ((objq a ad v e q).specs k).theta0)
          (atParind flags fun k => ((objq a ad v e q).specs k).minimum)
          (atParind flags fun k => ((objq a ad v e q).specs k).maximum) = false := by
        simp [isOutside, atParind, objq, newObj, specs]
      unfold checkLimits
      rw [if_pos e1, e2]
      exact .ok _
    · unfold initCovState
      refine Safe.bind ?_ fun _ _ => Safe.bind ?_ fun Rq hRq => ?_
      · change Safe _ (checkAdascale (defineSimulationOptions a).adascale _)
        simp only [defineSimulationOptions, had]
        by_cases hr : a.method = .ram
        · simp [hr, checkAdascale]
          rw [if_neg (by norm_num)]
          exact .ok _
        · simp [hr, checkAdascale, nS_flags]; exact .ok _
      · change Safe _ (setupRMatrix L (setupCovarianceMatrix q _ _) (parindOf flags))
        have hix : ∀ M : Mat XR 1, Safe (fun _ => False) (ixRestrict M (parindOf flags)) := fun M => by
          unfold ixRestrict
          rw [dif_pos fun i => (parindOf flags i).2]
          exact .ok _
        rcases hq with rfl | ⟨w, rfl⟩ | ⟨M, rfl⟩
        · refine (hix _).bind fun _ _ => ?_
          rw [if_pos rfl]; exact .ok _
        · exact (hix _).bind fun _ _ => .ok _
        · refine (hix _).bind fun _ _ => ?_
          rw [if_pos rfl]; exact .ok _
      · dsimp only
        split
        · rename_i hd
          have hd : a.method = .dram ∨ a.method = .dr := hd
          refine Safe.bind ?_ fun _ _ => .ok _
          exact hm hd Rq.1 Rq.2 hRq
        · exact .ok _
    · exact safe_evaluateSos hU _ _
    · rw [h2]; exact .ok _
    · rw [h2] at hms; cases hms; rw [h3]; exact .ok _
  · have hst := (initializeSimulation_ok hI).opts
    have hns : I.opts.nsimu = a.nsimu := by rw [hst]; rfl
    rw [if_neg (by omega)]
    refine Safe.bind ?_ fun _ _ => .ok _
    unfold initializeChains
    have hz : ∀ k, 0 < (zeroRows (F := XR) (n := k) I.opts.nsimu.toNat).length := by
      intro k; simp [zeroRows]; omega
    refine (safe_pySet (hz _) _).bind fun _ _ => (safe_pySet (hz _) _).bind fun _ _ => ?_
    split
    · exact (safe_pySet (hz _) _).bind fun _ _ => .ok _
    · exact .ok _

theorem setup_okq (L : Lapack XR) (a : OptArgs XR) (hn : 0 < a.nsimu) (had : a.adascale = none)
    (ad : Bool) (v e : ℝ) (q : Option (Qcov XR))
    (hq : q = none ∨ (∃ w, q = some (.variances 1 w)) ∨ ∃ M, q = some (.matrix 1 M))
    (hm : a.method = .dram ∨ a.method = .dr → ∀ R c : Mat XR (nS flags),
      setupRMatrix L (setupCovarianceMatrix q
        (fun k => setupPriorSigma (specs ad k).priorSigma) fun k => (specs ad k).theta0)
        (parindOf flags) = .ok (R, c) →
      Safe (fun _ => False) (setupRDRMatrix L R (defineSimulationOptions a).ntry.toNat [.fin 5] none)) :
    ∃ r, setupSimulator user L (objq a ad v e q) () false = .ok r :=
  setup_okU user (fun v => by simp [user]) L a hn had ad v e q hq hm

theorem setup_ok' (L : Lapack XR) (a : OptArgs XR) (hn : 0 < a.nsimu) (had : a.adascale = none)
    (ad : Bool) (v e : ℝ)
    (hm : a.method = .dram ∨ a.method = .dr → ∀ R q : Mat XR (nS flags),
      setupRMatrix L (.variances 1 fun _ => .fin v) (parindOf flags) = .ok (R, q) →
      Safe (fun _ => False) (setupRDRMatrix L R (defineSimulationOptions a).ntry.toNat [.fin 5] none)) :
    ∃ r, setupSimulator user L (obj a ad v e) () false = .ok r := 
  setup_okq L a hn had ad v e _ (.inr (.inl ⟨_, rfl⟩)) hm

theorem setup_ok (L : Lapack XR) (a : OptArgs XR) (hn : 0 < a.nsimu) (had : a.adascale = none)
    (hm : a.method ≠ .dram ∧ a.method ≠ .dr) (ad : Bool) (v e : ℝ) :
    ∃ r, setupSimulator user L (obj a ad v e) () false = .ok r :=
  setup_ok' L a hn had ad v e (by simp [hm.1, hm.2])

/-- three rows, one adaptation -/
noncomputable def args : OptArgs XR := { nsimu := 3, adaptint := some 2, method := .am }

end Verif.XRun
