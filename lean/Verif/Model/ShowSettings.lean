import Verif.Model.Mcmc

/-!
# Displaying the current settings

Models `display_current_mcmc_settings` (`/repo/pymcmcstat/MCMC.py:592-634`) and the three functions it
calls: `display_model_settings` (`settings/ModelSettings.py:197-213`), `display_simulation_options`
(`settings/SimulationOptions.py:200-216`) and `display_covariance_settings`
(`procedures/CovarianceProcedures.py:185-201`), with the values that are formatted into the lines.
How numpy writes an array is not modelled: a line carries the value itself.  A call of
`define_model_settings` between a run and the display (which leaves `nsos`) is not modelled either.
-/

namespace Verif
variable {F σ : Type} [PyFloat F] {N m n : ℕ}

/-- A value formatted by `'\t{} = {}'`.
Source: `settings/ModelSettings.py:197-213`, `settings/SimulationOptions.py:200-216`,
`procedures/CovarianceProcedures.py:185-201`, `MCMC.py:592-634`. -/
inductive Shown (F : Type) (n : ℕ) where
  /-- Python's `None` -/
  | pyNone
  /-- a function object -/
  | func
  | int (k : ℤ)
  | method (k : Method)
  | array (l : List F)
  | qcov (q : Qcov F)
  | matrix (M : Mat F n)
  | matrices (l : List (Mat F n))

/-- A line written by the display functions.
Source: `settings/ModelSettings.py:197-213`, `settings/SimulationOptions.py:200-216`,
`procedures/CovarianceProcedures.py:185-201`, `MCMC.py:592-634`. -/
inductive ShowLine (F : Type) (n : ℕ) where
  | header (s : String)
  | entry (name : String) (v : Shown F n)

/-- `print_these` and the attributes read: `none` is an attribute that was never set.
Source: `settings/ModelSettings.py:197-213`, `settings/SimulationOptions.py:200-216`,
`procedures/CovarianceProcedures.py:185-201`, `MCMC.py:592-634`. -/
abbrev Attrs (F : Type) (n : ℕ) := List (String × Option (Shown F n))

/-- the loop `for ptii in print_these: print(… getattr(self, ptii))`,
`settings/ModelSettings.py:211-212`, `settings/SimulationOptions.py:214-215`,
`procedures/CovarianceProcedures.py:199-200`: the lines printed, and the exception if one is
raised. -/
def showLoop : Attrs F n → List (ShowLine F n) × Except PyErr Unit
  | [] => ([], .ok ())
  | (_, none) :: _ => ([], .error .attributeError)
  | (name, some v) :: rest => (.entry name v :: (showLoop rest).1, (showLoop rest).2)

/-- one display function: its header, then its loop.
Source: `settings/ModelSettings.py:197-213`, `settings/SimulationOptions.py:200-216`,
`procedures/CovarianceProcedures.py:185-201`, `MCMC.py:592-634`. -/
def showBlock (header : String) (l : Attrs F n) : List (ShowLine F n) × Except PyErr Unit :=
  (.header header :: (showLoop l).1, (showLoop l).2)

/-- one statement after another: what follows an exception is not printed.
Source: `settings/ModelSettings.py:197-213`, `settings/SimulationOptions.py:200-216`,
`procedures/CovarianceProcedures.py:185-201`, `MCMC.py:592-634`. -/
def andThen (a b : List (ShowLine F n) × Except PyErr Unit) : List (ShowLine F n) × Except PyErr Unit :=
  match a.2 with
  | .error e => (a.1, .error e)
  | .ok () => (a.1 ++ b.1, b.2)

/-- `None` or a value.
Source: `settings/ModelSettings.py:197-213`, `settings/SimulationOptions.py:200-216`,
`procedures/CovarianceProcedures.py:185-201`, `MCMC.py:592-634`. -/
def optShown {α : Type} (f : α → Shown F n) : Option α → Shown F n
  | none => .pyNone
  | some a => f a

/-- a function handle or `None`.
Source: `settings/ModelSettings.py:197-213`, `settings/SimulationOptions.py:200-216`,
`procedures/CovarianceProcedures.py:185-201`, `MCMC.py:592-634`. -/
def handle (given : Bool) : Shown F n := if given then .func else .pyNone

/-- What the display functions read: the settings and options objects, `nsos` (which is only set by
`_check_dependent_model_settings_wrt_nsos`, `settings/ModelSettings.py:158`), and the covariance
object (whose attributes are only set by `_initialize_covariance_settings`). -/
structure ShowObj (F : Type) (n : ℕ) where
  /-- a sum-of-squares function was given -/
  sos : Bool
  /-- a model function was given -/
  model : Bool
  ms : ModelSettings F
  nsos : Option ℕ
  opts : SimOpts F
  extra : ExtraOpts F n
  cov : Option (CovState F n)

/-- `display_model_settings()`, `settings/ModelSettings.py:197-213` -/
def displayModelSettings (a : ShowObj F n) : List (ShowLine F n) × Except PyErr Unit :=
  showBlock "model settings:"
    [("sos_function", some (handle a.sos)), ("model_function", some (handle a.model)),
      ("sigma2", some (optShown .array a.ms.sigma2)), ("N", some (optShown .array a.ms.N)),
      ("N0", some (optShown .array a.ms.N0)), ("S20", some (.array a.ms.s20Now)),
      ("nsos", a.nsos.map fun k => .int k),
      ("nbatch", some (optShown (fun (k : ℕ) => .int k) a.ms.nbatch))]

/-- `display_simulation_options()`, `settings/SimulationOptions.py:200-216` -/
def displaySimulationOptions (a : ShowObj F n) : List (ShowLine F n) × Except PyErr Unit :=
  showBlock "simulation options:"
    [("nsimu", some (.int a.opts.nsimu)), ("adaptint", some (.int a.opts.adaptint)),
      ("ntry", some (.int a.opts.ntry)), ("method", some (.method a.opts.method)),
      ("printint", some (optShown .int a.opts.printint)), ("lastadapt", some (.int a.opts.lastadapt)),
      ("drscale", some (.array a.extra.drscale)), ("qcov", some (optShown .qcov a.extra.qcov))]

/-- reading `_RDR`. Source: `procedures/CovarianceProcedures.py:185-201`. -/
def slotShown : Slot (List (Mat F n)) → Option (Shown F n)
  | .missing => none
  | .pyNone => some .pyNone
  | .some l => some (.matrices l)

/-- `display_covariance_settings()`, `procedures/CovarianceProcedures.py:185-201` -/
def displayCovarianceSettings (a : ShowObj F n) : List (ShowLine F n) × Except PyErr Unit :=
  showBlock "covariance:"
    [("qcov", a.cov.map fun c => .matrix c.qcov), ("R", a.cov.map fun c => .matrix c.R),
      ("RDR", a.cov.bind fun c => slotShown c.RDR),
      ("invR", a.cov.map fun c => optShown .matrices c.invR),
      ("last_index_since_adaptation", a.cov.map fun c => .int c.lastIndex),
      ("covchain", a.cov.map fun c => optShown .matrix c.covchain)]

/-- `display_current_mcmc_settings`, `MCMC.py:592-634` -/
def displayCurrent (a : ShowObj F n) : List (ShowLine F n) × Except PyErr Unit :=
  andThen (displayModelSettings a) (andThen (displaySimulationOptions a) (displayCovarianceSettings a))

/-- the object before any call of `run_simulation`, `MCMC.py:68-81`;
`style1` and `model` tell which functions were given -/
def showsNew {flags : Fin N → Bool} (style1 model : Bool) (o : Obj F flags m) : ShowObj F (nS flags) :=
  ⟨style1, model, o.ms, none, o.opts, o.extra, none⟩

/-- the object after a completed run, `MCMC.py:84-127` -/
def showsAfter {flags : Fin N → Bool} (style1 model : Bool) (out : RunOut F σ flags m) :
    ShowObj F (nS flags) :=
  ⟨style1, model, out.obj.ms, some m, out.obj.opts, out.obj.extra, some out.final.cov⟩

end Verif
