import Verif.Model.Py
import Verif.Model.LogFiles
import Mathlib.Algebra.Order.Round
import Mathlib.Analysis.SpecialFunctions.Trigonometric.Basic

/-!
# Plotting and general utilities

Model of the numerical parts of `plotting/utilities.py`, of `utilities/general.py` and of
`utilities/progressbar.py`.  Drawing itself (matplotlib) is not modelled.
-/

namespace Verif

/-! ### Subplot grid and subsampling -/

/-- Python's `round(x)`: to the nearest integer, ties to the even one. Source: `plotting/utilities.py:29`. -/
noncomputable def pyRound (x : ℝ) : ℤ :=
  if Int.fract x < 1 / 2 then ⌊x⌋
  else if 1 / 2 < Int.fract x then ⌊x⌋ + 1
  else if Even ⌊x⌋ then ⌊x⌋ else ⌊x⌋ + 1

/-- `generate_subplot_grid`, `plotting/utilities.py:15-30` (exact square root) -/
noncomputable def generateSubplotGrid (nparam : ℕ) : ℤ × ℤ :=
  (⌈Real.sqrt nparam⌉, pyRound (Real.sqrt nparam))

/-- `np.arange(0, n, skip)` for integers: `ZeroDivisionError` for `skip = 0`.
Source: `plotting/utilities.py:399-422`. -/
def npArange (n skip : ℕ) : Except PyErr (List ℕ) :=
  if skip = 0 then .error .zeroDivision
  else .ok ((List.range ((n + skip - 1) / skip)).map (· * skip))

/-- `setup_subsample`, `plotting/utilities.py:399-422`.  (`int(np.floor(nsimu/maxpoints))` is the
integer quotient; `maxpoints = 0` is a division by zero.) -/
def setupSubsample (skip maxpoints nsimu : ℕ) : Except PyErr (List ℕ) :=
  if maxpoints < nsimu then
    if maxpoints = 0 then .error .zeroDivision else npArange nsimu (nsimu / maxpoints)
  else npArange nsimu skip

/-! ### Names -/

/-- `str('$p_{{{}}}$'.format(ii))`, `plotting/utilities.py:95,121` -/
def defaultName (ii : ℕ) : List Char := "$p_{".toList ++ dec ii ++ "}$".toList

/-- `generate_default_names`, `plotting/utilities.py:79-96` -/
def generateDefaultNames (nparam : ℕ) : List (List Char) := (List.range nparam).map defaultName

/-- `extend_names_to_match_nparam`, `plotting/utilities.py:99-122` -/
def extendNames (names : Option (List (List Char))) (nparam : ℕ) : List (List Char) :=
  let names := names.getD []
  names ++ (List.range' names.length (nparam - names.length)).map defaultName

/-- `generate_names`, `plotting/utilities.py:33-54` -/
def generateNames (nparam : ℕ) (names : Option (List (List Char))) : List (List Char) :=
  let names := names.getD (generateDefaultNames nparam)
  if names.length ≠ nparam then extendNames (some names) nparam else names

/-! ### Interquartile range -/

section
variable {K : Type} [Field K] {nc : ℕ}

/-- `iqrange`, `plotting/utilities.py:155-178`, for a column (`nr` rows, one column; a single row
is first turned into a column).  `x.sort()` sorts along the last axis, which for a column is the
axis of length one: the values are used in the order given.  Row `i+1` beyond the end raises
`IndexError`. -/
def iqrange (x : List K) : Except PyErr K := do
  let nr := x.length
  let i1 := (nr + 1) / 4
  let i3 := 3 * (nr + 1) / 4
  let f1 : K := ((nr : K) + 1) / 4 - i1
  let f3 : K := 3 / 4 * ((nr : K) + 1) - i3
  let a ← pyGet x i1
  let b ← pyGet x (i1 + 1)
  let c ← pyGet x i3
  let d ← pyGet x (i3 + 1)
  let q1 := (1 - f1) * a + f1 * b
  let q3 := (1 - f3) * c + f3 * d
  .ok (q3 - q1)

end

/-! ### Ellipse -/

/-- numpy's `allclose(a, a.T, atol=1e-8)` for a 2×2 matrix, `plotting/utilities.py:245-256`:
`|a_ij - a_ji| ≤ atol + rtol * |a_ji|` with `rtol = 1e-5` -/
noncomputable def checkSymmetric (c : Mat ℝ 2) : Bool :=
  decide (∀ i j, |c i j - c j i| ≤ 1 / 10 ^ 8 + 1 / 10 ^ 5 * |c j i|)

/-- `np.linalg.cholesky` of a 2×2 matrix (exact arithmetic; only the lower triangle is read),
transposed, as in `is_semi_pos_def_chol`, `plotting/utilities.py:259-278`.  `none` stands for
`LinAlgError`. The result is `(R00, R01, R11)`. -/
noncomputable def cholUpper2 (c : Mat ℝ 2) : Option (ℝ × ℝ × ℝ) :=
  if c 0 0 ≤ 0 then none
  else if c 1 1 - (c 1 0 / Real.sqrt (c 0 0)) ^ 2 ≤ 0 then none
  else some (Real.sqrt (c 0 0), c 1 0 / Real.sqrt (c 0 0),
    Real.sqrt (c 1 1 - (c 1 0 / Real.sqrt (c 0 0)) ^ 2))

/-- `generate_ellipse`, `plotting/utilities.py:216-242`, for a 2×2 matrix: the points for the
angles `t` (`np.linspace(0, 2*pi, ndp)`) -/
noncomputable def generateEllipse (mu : Vec ℝ 2) (cmat : Mat ℝ 2) (t : List ℝ) :
    Except PyErr (List (ℝ × ℝ)) :=
  if checkSymmetric cmat ≠ true then .error (.sysExit "covariance matrix must be symmetric")
  else match cholUpper2 cmat with
    | none => .error (.sysExit "covariance matrix must be positive definite")
    | some R => .ok (t.map fun t => (mu 0 + R.1 * Real.cos t,
        mu 1 + R.2.1 * Real.cos t + R.2.2 * Real.sin t))

/-! ### Settings -/

/-- a Python value in a settings dictionary: `None`, another non-dictionary value, or a
dictionary, given by its keys (in order) and the value of every key.  Values outside `keys` are
meaningless. Source: `plotting/utilities.py:365-396`. -/
inductive SVal (κ A : Type) where
  | none
  | leaf (a : A)
  | dict (keys : List κ) (val : κ → SVal κ A)

/-- `isinstance(v, dict)`. Source: `plotting/utilities.py:365-396`. -/
def SVal.isDict {κ A : Type} : SVal κ A → Bool
  | .dict _ _ => true
  | _ => false

section
variable {κ A : Type} [DecidableEq κ]

/-- `d[k] = v` for a dictionary given as keys and values. Source: `plotting/utilities.py:365-396`. -/
def dictSet (d : List κ × (κ → SVal κ A)) (k : κ) (v : SVal κ A) : List κ × (κ → SVal κ A) :=
  (if k ∈ d.1 then d.1 else d.1 ++ [k], Function.update d.2 k v)

/-- `check_settings`, `plotting/utilities.py:365-396` and `utilities/general.py:61-92` (the same
code).  User settings `None` are treated as `{}`; a value that is neither `None` nor a dictionary
has no `keys` (`AttributeError`), and so has a default that is not a dictionary no `copy`.  (User
keys are different from each other, so `settings[uo]` is still the default's value when `uo` is
reached.) -/
def checkSettings : SVal κ A → SVal κ A → Except PyErr (SVal κ A)
  | .dict ks dv, .none => .ok (.dict ks dv)
  | .dict ks dv, .dict us uv =>
    (us.foldlM (fun (st : List κ × (κ → SVal κ A)) uo =>
      if uo ∈ ks then
        if (dv uo).isDict then (checkSettings (dv uo) (uv uo)).map (dictSet st uo)
        else .ok (dictSet st uo (uv uo))
      else .ok (dictSet st uo (uv uo))) (ks, dv)).map fun st => .dict st.1 st.2
  | _, _ => .error .attributeError

end

/-! ### Dictionaries with identity -/

/-- all dictionaries of the program; a reference is a position. Source: `plotting/utilities.py:365-396`. -/
abbrev Store (κ V : Type) := List (List (κ × V))

section
variable {κ V : Type} [DecidableEq κ]

/-- `removekey`, `utilities/general.py:45-58`: `dict(d)` makes a new dictionary, from which the
key is deleted (`KeyError` if it is not there).  The result is the reference of the new one. -/
def removekey (h : Store κ V) (d : ℕ) (key : κ) : Except PyErr (Store κ V × ℕ) := do
  let entries ← pyGet h d
  if key ∈ entries.map Prod.fst then
    .ok (h ++ [entries.filter fun e => e.1 ≠ key], h.length)
  else .error .keyError

/-- the loop `for keyii in do_not_save_these_keys: r = removekey(r, keyii)`,
`structures/ResultsStructure.py:263-265,280-282,350-351` -/
def removeKeys (h : Store κ V) (d : ℕ) : List κ → Except PyErr (Store κ V × ℕ)
  | [] => .ok (h, d)
  | k :: ks => do
    let r ← removekey h d k
    removeKeys r.1 r.2 ks

end

/-- `lighten_results`, `structures/ResultsStructure.py:341-352` -/
def lightenResults {V : Type} (h : Store String V) (results : ℕ) :
    Except PyErr (Store String V × ℕ) :=
  removeKeys h results ["chain", "s2chain", "sschain"]

/-! ### Progress bar -/

/-- `replace_at`, `utilities/progressbar.py:60-61` -/
def replaceAt (s new : List Char) (start stop : ℕ) : List Char :=
  s.take start ++ new ++ s.drop stop

/-- `TextProgressBar.bar(self.percentage(i))`, `utilities/progressbar.py:16-17,49-57`
(`width = 40`, exact arithmetic; `int` and `%d` truncate) -/
def progressBar (i iterations : ℕ) : Except PyErr (List Char) :=
  if iterations = 0 then .error .zeroDivision
  else
    let numHashes := 38 * i / iterations
    let bar := List.replicate numHashes '-' ++ List.replicate (38 - numHashes) ' '
    let info := dec (100 * i / iterations) ++ ['%']
    let loc := (bar.length - info.length) / 2
    .ok (replaceAt bar info loc (loc + info.length))

/-- `TextProgressBar.progbar`, `utilities/progressbar.py:44-47`; `sec` is the formatted time -/
def progressText (i iterations : ℕ) (sec : List Char) : Except PyErr (List Char) :=
  (progressBar i iterations).map fun bar =>
    ['['] ++ bar ++ "] ".toList ++ dec i ++ " of ".toList ++ dec iterations ++
      " complete in ".toList ++ sec ++ " sec".toList

/-- `ProgressBar.update(i)`, `utilities/progressbar.py:19-28`: the number passed to `animate`, if
any; `late` says whether more than the animation interval has passed since the last animation -/
def progressUpdate (iterations i : ℕ) (late : Bool) : Option ℕ :=
  if late then some (i + 1 + 1)
  else if i + 1 = iterations then some (i + 1)
  else none

end Verif
