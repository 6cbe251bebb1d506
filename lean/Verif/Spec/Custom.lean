import Verif.Model.Custom
import Verif.Spec.Run

/-! # Vocabulary for statements about runs with custom samplers -/

namespace Verif
variable {F σ κ V : Type} [PyFloat F] {N m : ℕ} {flags : Fin N → Bool}

/-- The user's sum-of-squares function has the value `ss` at the full vector `v` when the outputs of the
custom samplers are `c` (`none`: `custom=None`): a function supplied as sum-of-squares function is called with
`custom=c`, and without the keyword if it does not take it (a `TypeError`); any other is called without. -/
def SosValueGiven {n : ℕ} (U : CustomFuns F V N n m) (c : Option (List V)) (v : Vec F N) (ss : Vec F m) :
    Prop :=
  if U.style1 then
    U.sosFun (.custom c) v = .ok ss ∨
      (U.sosFun (.custom c) v = .error .typeError ∧ U.sosFun .plain v = .ok ss)
  else U.sosFun .plain v = .ok ss

/-- The function gives `ss` at the sampled values `theta`, all other parameters at the values the user
gave, when the outputs of the custom samplers are `c`. -/
def SosThereGiven (U : CustomFuns F V N (nS flags) m) (specs : Fin N → ParamSpec F)
    (c : Option (List V)) (theta : Vec F (nS flags)) (ss : Vec F m) : Prop :=
  ∃ v, BelongsTo flags specs theta v ∧ SosValueGiven U c v ss

/-- The record of all calls of custom samplers in a run of `nsim` rows, the first of them row `b` of
the chain.  `K i`, `O i` and `Γ i` are, sampler by sampler in the order of the list, the states of the
samplers after iteration `i`, their outputs in it, and the states of the random generator between the
calls; number `0` is the set-up before the first iteration. -/
structure Protocol (cs : Samplers F σ κ V (nS flags) m) (out : CustomOut F σ κ V flags m)
    (nsim b : ℕ) (K : ℕ → List κ) (O : ℕ → List V) (Γ : ℕ → List σ) : Prop where
  /-- every sampler has one entry in every iteration -/
  lengths : ∀ i, i < nsim → (K i).length = cs.length ∧ (O i).length = cs.length ∧
    (Γ i).length = cs.length + 1
  /-- each sampler is set up once, from the state in which the user registered it -/
  setup : ∀ (j : ℕ) (c : CustomSampler F σ κ V (nS flags) m) k, cs[j]? = some (c, k) →
    ∃ v k' a g, (O 0)[j]? = some v ∧ (K 0)[j]? = some k' ∧ (Γ 0)[j]? = some a ∧
      (Γ 0)[j + 1]? = some g ∧ c.setup k a = .ok (v, k', g)
  /-- in each iteration each sampler is updated once, from the state its last call left, with the
  decision of the iteration, the number of the iteration, and the set that is in the chains -/
  update : ∀ i, 1 ≤ i → i < nsim → ∃ ts cur, out.run.final.trace[i - 1]? = some ts ∧
    out.run.results.chain[b + i]? = some cur.theta ∧
    out.run.results.sschain[b + i]? = some cur.ss ∧
    (∀ c, out.run.results.s2chain = some c → c[b + i]? = some cur.sigma2) ∧
    ∀ (j : ℕ) (c : CustomSampler F σ κ V (nS flags) m) k0, cs[j]? = some (c, k0) →
      ∃ k v k' a g, (K (i - 1))[j]? = some k ∧ (O i)[j]? = some v ∧ (K i)[j]? = some k' ∧
        (Γ i)[j]? = some a ∧ (Γ i)[j + 1]? = some g ∧
        c.update k (!Rejection ts) i cur a = .ok (v, k', g)
  /-- the next iteration starts with the generator as the last sampler left it -/
  generator : ∀ i, i + 1 < nsim → ∃ r, out.run.final.moveLog[i]? = some r ∧
    (Γ i)[cs.length]? = some r.rng
  /-- the samplers the run returns are the user's, in the states of the last iteration -/
  samplers : out.samplers = List.zip (cs.map Prod.fst) (K (nsim - 1))
  output : out.output = O (nsim - 1)

end Verif
