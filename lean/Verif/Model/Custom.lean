import Verif.Model.Mcmc

/-!
# Custom samplers

Models the part of `/repo/pymcmcstat/MCMC.py` that `Model/Simulator.lean` and `Model/Mcmc.lean`
leave out: the objects in `MCMC.custom_samplers` (`MCMC.py:74`), which are set up before the loop
(`MCMC.py:218-223`), whose outputs are handed to the user's sum-of-squares function
(`MCMC.py:309-329`, `samplers/Metropolis.py:77`, `samplers/DelayedRejection.py:69`,
`procedures/SumOfSquares.py:55-59`), which are updated once in every iteration
(`MCMC.py:367-374`) and whose chains are saved (`MCMC.py:388-395,405-408`).

Assumed of the user's sampler: its methods read the set they are given and do not write to it.
-/

namespace Verif
variable {F σ κ V : Type} [PyFloat F] {N n m : ℕ}

/-- A custom sampler as `MCMC` uses it (`MCMC.py:223,371-374,390-391,407`; an instance is
`test/general_functions.py:192-212`): `setup()` and `update(accept, isimu, current_set)` return an
output and may change the object's state `κ` and draw from numpy's generator; `save_chain` is
`true` if the attribute exists and `is True`; `chains` is the list of file names and arrays. -/
structure CustomSampler (F σ κ V : Type) (n m : ℕ) where
  setup : κ → σ → Except PyErr (V × κ × σ)
  update : κ → Bool → ℕ → ParamSet F n m → σ → Except PyErr (V × κ × σ)
  saveChain : κ → Bool
  chains : κ → List (String × List (List F))

/-- the sampler objects in their present states, `MCMC.custom_samplers`, `MCMC.py:74` -/
abbrev Samplers (F σ κ V : Type) (n m : ℕ) := List (CustomSampler F σ κ V n m × κ)

/-- `for cs in self.custom_samplers: output.append(cs.setup())`, `MCMC.py:219-223`. -/
def setupAll : Samplers F σ κ V n m → σ → Except PyErr (List V × Samplers F σ κ V n m × σ)
  | [], g => .ok ([], [], g)
  | (c, k) :: cs, g => do
    let (v, k, g) ← c.setup k g
    let (vs, cs, g) ← setupAll cs g
    .ok (v :: vs, (c, k) :: cs, g)

/-- `for cs in self.custom_samplers: output.append(cs.update(...))`, `MCMC.py:367-374`. -/
def updateAll (accept : Bool) (isimu : ℕ) (cur : ParamSet F n m) :
    Samplers F σ κ V n m → σ → Except PyErr (List V × Samplers F σ κ V n m × σ)
  | [], g => .ok ([], [], g)
  | (c, k) :: cs, g => do
    let (v, k, g) ← c.update k accept isimu cur g
    let (vs, cs, g) ← updateAll accept isimu cur cs g
    .ok (v :: vs, (c, k) :: cs, g)

/-- How the user's sum-of-squares function is called, `procedures/SumOfSquares.py:55-59`: with
`custom=None` (the first evaluation, `MCMC.py:205`), with `custom=` the list of outputs (in the
loop), or without the keyword. -/
inductive SosCall (V : Type) where
  | custom (c : Option (List V))
  | plain

/-- the user's functions, `procedures/SumOfSquares.py:26-41`, `procedures/PriorFunction.py:22-31` -/
structure CustomFuns (F V : Type) (N n m : ℕ) where
  style1 : Bool
  sosFun : SosCall V → Vec F N → Except PyErr (Vec F m)
  priorFun : Vec F n → Vec F n → Vec F n → F

/-- the user's functions as seen by `evaluate_sos_function(theta, custom=c)`,
`procedures/SumOfSquares.py:43-68` -/
def CustomFuns.given (U : CustomFuns F V N n m) (c : Option (List V)) : UserFuns F N n m :=
  ⟨U.style1, fun kw => U.sosFun (if kw then .custom c else .plain), U.priorFun⟩

/-- a block handed to `__save_to_log_file` for the chains of one custom sampler: the rows
`start..stop-1` of each of its arrays, `MCMC.py:390-395,407-408,484-512` -/
structure CustomBlock (F : Type) where
  /-- position of the sampler in `custom_samplers` -/
  sampler : ℕ
  start : ℕ
  stop : ℕ
  parts : List (String × List (List F))

/-- State of `__execute_simulator` between iterations, with the samplers, their last outputs and
the blocks saved for them. Source: `MCMC.py:282-411`. -/
structure CustomState (F σ κ V : Type) (N n m : ℕ) where
  sim : SimState F σ N n m
  samplers : Samplers F σ κ V n m
  output : List V
  blocks : List (CustomBlock F)

/-- the blocks of rows `start..stop-1` of all samplers that save their chains,
`MCMC.py:389-395,406-408` -/
def customBlocks (cs : Samplers F σ κ V n m) (start stop : ℕ) : List (CustomBlock F) :=
  cs.zipIdx.flatMap fun x =>
    if x.1.1.saveChain x.1.2 then
      [⟨x.2, start, stop, (x.1.1.chains x.1.2).map fun f => (f.1, pySlice f.2 start stop)⟩]
    else []

/-- one iteration of the loop of `__execute_simulator`, `MCMC.py:297-395`. -/
def customStep (U : CustomFuns F V N n m) (E : Env F σ N n m) (c : CustomState F σ κ V N n m)
    (isimu : ℕ) : Except PyErr (CustomState F σ κ V N n m) := do
  let E := { E with problem := { E.problem with sosFun := (U.given (some c.output)).sosFun } }
  let s := { c.sim with
    iiadapt := c.sim.iiadapt + 1, savecount := c.sim.savecount + 1
    chainIndex := c.sim.chainIndex + 1 }
  let p ← propose E s
  let s ← record s p
  let s ← adapt E isimu s p
  let s ← sampleSigma E s
  let (vs, cs, g) ← updateAll p.accept isimu s.oldSet c.samplers s.world.rng
  let s := { s with world := { s.world with rng := g } }
  .ok { sim := saveStep E isimu s, samplers := cs, output := vs
        blocks := c.blocks ++ if s.savecount = E.opts.savesize
          then customBlocks cs (isimu - E.opts.savesize) isimu else [] }

/-- `__execute_simulator`, `MCMC.py:282-411`, with custom samplers. -/
def customSimulator (U : CustomFuns F V N n m) (E : Env F σ N n m)
    (c : CustomState F σ κ V N n m) : Except PyErr (CustomState F σ κ V N n m) := do
  let s := { c.sim with iiadapt := 0, savecount := 0, lastbin := 0, rejected := ⟨0, 0, 0⟩ }
  let c ← (List.range' 1 (E.opts.nsimu - 1)).foldlM (customStep U E) { c with sim := s }
  let s ← finish E.opts.nsimu c.sim
  .ok { c with
    sim := s
    blocks := c.blocks ++ customBlocks c.samplers c.sim.lastbin E.opts.nsimu }

/-- what a run with custom samplers leaves behind. Source: `MCMC.py:84-127`. -/
structure CustomOut (F σ κ V : Type) {N : ℕ} (flags : Fin N → Bool) (m : ℕ) where
  run : RunOut F σ flags m
  samplers : Samplers F σ κ V (nS flags) m
  /-- `MCMC.custom_sampler_output` -/
  output : List V
  blocks : List (CustomBlock F)

/-- `run_simulation`, `MCMC.py:84-127`, with custom samplers.  (The samplers are set up after
`__setup_simulator` as a whole, not at the end of `_initialize_simulation` which it contains; the
chains are allocated in between, which touches nothing the samplers see.) -/
def runCustom {flags : Fin N → Bool} (U : CustomFuns F V N (nS flags) m) (G : Rng σ F)
    (L : Lapack F) (fuel : ℕ) (cs : Samplers F σ κ V (nS flags) m) (o : Obj F flags m) (rng : σ)
    (usePrevious : Bool) : Except PyErr (CustomOut F σ κ V flags m) := do
  let (o1, I, s0) ← setupSimulator (U.given none) L o rng usePrevious
  let (vs, cs, g) ← setupAll cs s0.world.rng
  let s0 := { s0 with world := { s0.world with rng := g } }
  let E : Env F σ N (nS flags) m := ⟨I.problem, G, L, runOpts I.opts o1.extra, fuel⟩
  let c ← customSimulator U E ⟨s0, cs, vs, []⟩
  let s := c.sim
  let res ← generateResults o1 I s
  let live : Chains F (nS flags) m := ⟨s.chain, s.sschain, s.s2chain⟩
  .ok { samplers := c.samplers, output := c.output, blocks := c.blocks
        run := { results := res, final := s, init := I
                 obj := { o1 with
                   opts := I.opts, ms := settingsAfter I.ms s.errModel
                   chainIndex := s.chainIndex, chains := live
                   logChains := if usePrevious then o1.logChains else some live
                   covRDR := s.cov.RDR, results := some res } } }

end Verif
