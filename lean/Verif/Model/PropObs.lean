import Verif.Model.Propagation

/-!
# What `calculate_intervals` returns

The noise added by `observation_sample` with numpy's broadcasting of the error variances, and the
dictionaries built at the end of `calculate_intervals` (`propagation.py:84-130,473-493`).

Simplifications: `x**2` is `x * x`; the normal draws are an argument (`noise kk jj i` for round `kk`,
output `jj` and point `i`); the model returns the same number of columns at every call.
-/

namespace Verif

section
variable {F : Type} [PyFloat F]

/-- one entry of `opred`, `propagation.py:485-491`; `z` is the normal draw -/
def obsElem (sstype : ℤ) (y z s2 : F) : F :=
  if sstype = 0 then y + z * PyFloat.sqrt s2
  else if sstype = 1 then
    (PyFloat.sqrt y + z * PyFloat.sqrt s2) * (PyFloat.sqrt y + z * PyFloat.sqrt s2)
  else y * PyFloat.exp (z * PyFloat.sqrt s2)

/-- `observation_sample`, `propagation.py:473-493`: `np.random.standard_normal(y.shape) * np.sqrt(s2)`
with `s2` a number or a row, by the broadcasting rules -/
def observationSampleRow (sstype : ℤ) (z : ℕ → F) (s2 : S2Val F) (y : List F) : Except PyErr (List F) :=
  if sstype ≠ 0 ∧ sstype ≠ 1 ∧ sstype ≠ 2 then .error (.sysExit "Unknown sstype")
  else match s2 with
    | .num s => .ok (y.mapIdx fun i a => obsElem sstype a (z i) s)
    | .row [s] => .ok (y.mapIdx fun i a => obsElem sstype a (z i) s)
    | .row l =>
      if l.length = y.length then
        .ok ((List.zip y l).mapIdx fun i as => obsElem sstype as.1 (z i) as.2)
      else match y with
        | [a] => .ok (l.map fun s => obsElem sstype a (z 0) s)
        | _ => .error .valueError

/-- `observation_sample`, `propagation.py:473-493`, for the response as the model returned it, flattened as in
`propagation.py:85`.  Of a two-dimensional response every row is combined with the row of error variances; a column
with several error variances becomes a matrix. -/
def observationSampleOut (sstype : ℤ) (z : ℕ → F) (s2 : S2Val F) : ModelOut F → Except PyErr (List F)
  | .vec y => observationSampleRow sstype z s2 y
  | .mat r c y =>
    match s2 with
    | .num s => observationSampleRow sstype z (.num s) (ModelOut.mat r c y).flat
    | .row [s] => observationSampleRow sstype z (.row [s]) (ModelOut.mat r c y).flat
    | .row l =>
      if sstype ≠ 0 ∧ sstype ≠ 1 ∧ sstype ≠ 2 then .error (.sysExit "Unknown sstype")
      else if h : c = 1 then
        .ok (List.ofFn fun i => l.map fun s => obsElem sstype (y i ⟨0, by omega⟩) (z i) s).flatten
      else if h : l.length = c then
        .ok (List.ofFn fun i : Fin r => List.ofFn fun j : Fin c =>
          obsElem sstype (y i j) (z (i * c + j)) (l.get (j.cast h.symm))).flatten
      else .error .valueError

/-- the observations of round `kk` and output `jj`, `propagation.py:83-85,103-112` -/
def propObs (sstype : ℤ) (noise : ℕ → ℕ → ℕ → F) (kk jj : ℕ) (s2 : S2Val F) (y : ModelOut F) :
    Except PyErr (List F) :=
  observationSampleOut sstype (noise kk jj) s2 y

end

/-- the returned dictionaries, `propagation.py:114-130`: one pair of `credible` and `prediction` for each
output; `noS2` says that `s2chain` is `None` -/
def intervalsReturned {F : Type} {N : ℕ} (noS2 : Bool) (st : PropState F N) :
    Except PyErr (List (List (List F) × Option (List (List F)))) :=
  if st.multiple = false then .ok [(st.ci, if noS2 then none else some st.pi)]
  else do
    let cis ← orRaise st.cis .nameError
    let pis ← orRaise st.pis .nameError
    (List.range cis.length).mapM fun jj => do
      let credible ← pyGet cis jj
      let prediction ← (if noS2 then .ok none else (pyGet pis jj).map some)
      .ok (credible, prediction)

end Verif
