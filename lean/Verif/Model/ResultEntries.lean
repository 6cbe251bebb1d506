import Verif.Model.Mcmc

/-! # The entries `prior`, `simulation_options` and `model_settings` of the results -/

namespace Verif
variable {F σ : Type} [PyFloat F] {N m : ℕ}

/-- `removekey`, `utilities/general.py:45-58`, for a dictionary as the list of its items (which dictionaries are new is
in `Model/PlotUtils.lean`) -/
def withoutKey {V : Type} (d : List (String × V)) (key : String) : Except PyErr (List (String × V)) :=
  if d.any (fun kv => kv.1 == key) then .ok (d.filter fun kv => !(kv.1 == key)) else .error .keyError

/-- the loops of `add_options` and `add_model`, `structures/ResultsStructure.py:263-264,280-281` -/
def withoutKeys {V : Type} (d : List (String × V)) (keys : List String) :
    Except PyErr (List (String × V)) := keys.foldlM withoutKey d

/-- a value in one of the two dictionaries; `other` stands for values that the model does not
follow (file names, time stamps, functions of the user, ...).
Source: `structures/ResultsStructure.py:250-266`, `structures/ResultsStructure.py:268-283`. -/
inductive EntryVal (F : Type) where
  | int (i : ℤ)
  | flag (b : Bool)
  | method (a : Method)
  | floats (l : List F)
  | maybeFloat (x : Option F)
  | other

/-- `options.__dict__` at the end of a run, `settings/SimulationOptions.py:21-25,97-170`
(`adaptend`, `label`, ... are not followed) -/
def optionItems {n : ℕ} (o : SimOpts F) (e : ExtraOpts F n) : List (String × EntryVal F) :=
  [("description", .other), ("_SimulationOptions__options_set", .flag true),
   ("adaptint", .int o.adaptint), ("ntry", .int o.ntry), ("adascale", .maybeFloat o.adascale),
   ("doram", .flag o.doram), ("nsimu", .int o.nsimu), ("method", .method o.method),
   ("dodram", .flag o.dodram), ("printint", match o.printint with | some p => .int p | none => .other),
   ("adaptend", .other), ("lastadapt", .int o.lastadapt), ("burnintime", .int o.burnintime),
   ("waitbar", .other), ("debug", .other), ("qcov", .other), ("initqcovn", .maybeFloat o.initqcovn),
   ("updatesigma", .flag o.updatesigma), ("priorupdatestart", .other),
   ("qcov_adjust", .floats [e.qcovAdjust]), ("burnin_scale", .floats [e.burninScale]),
   ("alphatarget", .floats [e.alphatarget]), ("etaparam", .floats [e.etaparam]), ("stats", .other),
   ("drscale", .floats e.drscale), ("skip", .other), ("datestr", .other), ("label", .other),
   ("RDR", .other), ("verbosity", .other), ("maxiter", .other), ("savesize", .int o.savesize),
   ("maxmem", .other), ("chainfile", .other), ("s2chainfile", .other), ("sschainfile", .other),
   ("covchainfile", .other), ("savedir", .other), ("save_to_bin", .flag o.saveToBin),
   ("save_to_txt", .flag o.saveToTxt), ("results_filename", .other), ("save_to_json", .flag o.saveToJson),
   ("json_restart_file", .other), ("save_lightly", .flag o.saveLightly)]

/-- `model.__dict__` at the end of a run, `settings/ModelSettings.py:24,48-63,90-114,150-158` -/
def settingItems (s : ModelSettings F) (m : ℕ) : List (String × EntryVal F) :=
  [("description", .other), ("sos_function", .other), ("prior_function", .other),
   ("prior_type", .other), ("prior_update_function", .other), ("prior_pars", .other),
   ("model_function", .other), ("sigma2", match s.sigma2 with | some l => .floats l | none => .other),
   ("N", match s.N with | some l => .floats l | none => .other),
   ("N0", match s.N0 with | some l => .floats l | none => .other),
   ("nbatch", match s.nbatch with | some k => .int k | none => .other),
   ("S20", .floats s.s20Now), ("Nshape", .other), ("nsos", .int m)]

/-- `add_options`, `structures/ResultsStructure.py:250-266` -/
def addOptions (items : List (String × EntryVal F)) : Except PyErr (List (String × EntryVal F)) :=
  withoutKeys items ["doram", "waitbar", "debug", "dodram", "maxmem", "verbosity", "RDR", "stats",
    "initqcovn", "drscale", "maxiter", "_SimulationOptions__options_set", "skip"]

/-- `add_model`, `structures/ResultsStructure.py:268-283` -/
def addModel (items : List (String × EntryVal F)) : Except PyErr (List (String × EntryVal F)) :=
  withoutKeys items ["sos_function", "prior_function", "model_function", "prior_update_function",
    "prior_pars"]

/-- `results['simulation_options']` after a run, `MCMC.py:444` -/
def optionsEntry {flags : Fin N → Bool} (out : RunOut F σ flags m) :
    Except PyErr (List (String × EntryVal F)) :=
  addOptions (optionItems out.obj.opts out.obj.extra)

/-- `results['model_settings']` after a run, `MCMC.py:445` -/
def settingsEntry {flags : Fin N → Bool} (out : RunOut F σ flags m) :
    Except PyErr (List (String × EntryVal F)) := addModel (settingItems out.obj.ms m)

/-- `mu` and `sigma` in `results['prior']` after a run, `MCMC.py:448-451`,
`structures/ResultsStructure.py:235-248`, `settings/ModelParameters.py:126-127,294-296`: the arrays for
all parameters, sampled or not -/
def priorEntry {flags : Fin N → Bool} (out : RunOut F σ flags m) : Vec F N × Vec F N :=
  (fun k => setupPriorMu (out.obj.specs k).priorMu (out.obj.specs k).theta0,
   fun k => setupPriorSigma (out.obj.specs k).priorSigma)

end Verif
