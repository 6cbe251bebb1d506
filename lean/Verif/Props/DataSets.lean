import Verif.Model.Settings

/-! # Data sets (C34) -/

namespace Verif

/-- the arguments of one call of `add_data_set` -/
structure DataCall where
  x : DataArg
  y : DataArg
  n : Option ℕ := none
  weight : ℚ := 1
  udo : ℤ := 0

/-- a sequence of calls -/
def addAll (d : Data) (calls : List DataCall) : Data :=
  calls.foldl (fun d c => addDataSet d c.x c.y c.n c.weight c.udo) d

/-- The number of observations in what the user passes as `y`: a vector or a list has one per
entry, a matrix one per row, a number is one; arrays of other dimensions count their entries. -/
def observations : DataArg → ℕ
  | .scalar => 1
  | .pyList k => k
  | .array [] => 1
  | .array [k] => k
  | .array [r, _] => r
  | .array sh => sh.prod

theorem addAll_append (d : Data) (a b : List DataCall) :
    addAll d (a ++ b) = addAll (addAll d a) b := by
  simp [addAll]

theorem addAll_lists (d : Data) (calls : List DataCall) :
    (addAll d calls).xshape.length = d.xshape.length + calls.length ∧
    (addAll d calls).shape.length = d.shape.length + calls.length ∧
    (addAll d calls).weight = d.weight ++ calls.map (·.weight) ∧
    (addAll d calls).udo = d.udo ++ calls.map (·.udo) ∧
    (addAll d calls).shape = d.shape ++
      calls.map (fun c => convertNumpyArrayTo2d (convertToNumpyArray c.y)) := by
  induction calls generalizing d with
  | nil => simp [addAll]
  | cons c cs ih =>
    have h := ih (addDataSet d c.x c.y c.n c.weight c.udo)
    have e : addAll d (c :: cs) = addAll (addDataSet d c.x c.y c.n c.weight c.udo) cs := rfl
    rw [e]
    obtain ⟨h1, h2, h3, h4, h5⟩ := h
    refine ⟨by rw [h1]; simp [addDataSet]; omega, by rw [h2]; simp [addDataSet]; omega,
      by rw [h3]; simp [addDataSet], by rw [h4]; simp [addDataSet], by rw [h5]; simp [addDataSet]⟩

theorem rows_array {sh : List ℕ} :
    (let ys := convertNumpyArrayTo2d (convertToNumpyArray (.array sh))
     if ys.1 * ys.2 = 1 then 1 else ys.1) = observations (.array sh) := by
  have key : ∀ a b : ℕ, (if a * b = 1 then 1 else a) = a := by
    intro a b
    split
    · rename_i h; exact (Nat.eq_one_of_mul_eq_one_right h).symm
    · rfl
  match sh with
  | [] => rfl
  | [k] =>
    simp only [convertNumpyArrayTo2d, convertToNumpyArray, observations, List.prod_singleton]
    exact key k 1
  | [r, c] => simp only [convertNumpyArrayTo2d, convertToNumpyArray, observations]; exact key r c
  | a :: b :: c :: l =>
    simp only [convertNumpyArrayTo2d, convertToNumpyArray, observations]; exact key _ 1

/-- **C34 (partial).** For every sequence of calls of `add_data_set`: the lists of x data, y data
(shapes), weights and user objects have one entry per call, in order.  If no call gives `n` and
every `y` is an array or a number (or a list of one entry), then `n` also has one entry per call:
the number of observations of that call.
Missing from C34: calls that give `n`, and lists; see `C34_n_given_refuted`, `C34_list_refuted`. -/
theorem C34_counts_partial (calls : List DataCall) :
    (addAll {} calls).xshape.length = calls.length ∧
    (addAll {} calls).nbatch = calls.length ∧
    (addAll {} calls).weight = calls.map (·.weight) ∧
    (addAll {} calls).udo = calls.map (·.udo) ∧
    ((∀ c ∈ calls, c.n = none ∧ ∀ k, c.y = .pyList k → k = 1) →
      (addAll {} calls).n = calls.map (fun c => observations c.y) ∧
      (addAll {} calls).nobs = (calls.map fun c => observations c.y).sum) := by
  obtain ⟨h1, h2, h3, h4, -⟩ := addAll_lists {} calls
  refine ⟨by simpa using h1, by rw [Data.nbatch]; simpa using h2, by simpa using h3,
    by simpa using h4, fun hc => ?_⟩
  have : ∀ (calls : List DataCall) (d : Data),
      (∀ c ∈ calls, c.n = none ∧ ∀ k, c.y = .pyList k → k = 1) →
      (addAll d calls).n = d.n ++ calls.map (fun c => observations c.y) := by
    intro calls
    induction calls with
    | nil => intro d _; simp [addAll]
    | cons c cs ih =>
      intro d hc
      have e : addAll d (c :: cs) = addAll (addDataSet d c.x c.y c.n c.weight c.udo) cs := rfl
      rw [e, ih _ fun c' h' => hc c' (List.mem_cons_of_mem _ h')]
      obtain ⟨hn, hy⟩ := hc c List.mem_cons_self
      have : (addDataSet d c.x c.y c.n c.weight c.udo).n = d.n ++ [observations c.y] := by
        rw [hn]
        cases hcy : c.y with
        | array sh => exact congrArg (fun v => d.n ++ [v]) rows_array
        | scalar => rfl
        | pyList k => rw [hy k hcy]; rfl
      rw [this]
      simp
  have h := this calls {} hc
  rw [List.nil_append] at h
  exact ⟨h, by rw [Data.nobs, h]⟩

/-- The number of columns of what the user passes as `y`: a matrix has its own, a list becomes one row, everything
else one column. -/
def columns : DataArg → ℕ
  | .array [_, c] => c
  | .pyList k => k
  | _ => 1

/-- how many numbers the user passes -/
def entries : DataArg → ℕ
  | .array sh => sh.prod
  | .scalar => 1
  | .pyList k => k

/-- **C34, columns.** For every sequence of calls, with or without `n`, lists included: the number of data sets is
the total number of columns, and every stored array has as many entries as were passed. -/
theorem C34_columns (calls : List DataCall) :
    (addAll {} calls).ndatasets = (calls.map fun c => columns c.y).sum ∧
    (addAll {} calls).shape.map (fun s => s.1 * s.2) = calls.map fun c => entries c.y := by
  obtain ⟨-, -, -, -, h⟩ := addAll_lists {} calls
  have hc : ∀ a : DataArg, (convertNumpyArrayTo2d (convertToNumpyArray a)).2 = columns a ∧
      (convertNumpyArrayTo2d (convertToNumpyArray a)).1 * (convertNumpyArrayTo2d (convertToNumpyArray a)).2 =
        entries a := by
    intro a
    match a with
    | .scalar => decide
    | .pyList k => simp [convertNumpyArrayTo2d, convertToNumpyArray, columns, entries]
    | .array [] => decide
    | .array [k] => simp [convertNumpyArrayTo2d, convertToNumpyArray, columns, entries]
    | .array [r, c] => simp [convertNumpyArrayTo2d, convertToNumpyArray, columns, entries]
    | .array (a :: b :: c :: l) => simp [convertNumpyArrayTo2d, convertToNumpyArray, columns, entries]
  change _ = [] ++ _ at h
  rw [Data.ndatasets, h, List.nil_append, List.map_map, List.map_map]
  exact ⟨congrArg List.sum (List.map_congr_left fun c _ => (hc c.y).1), List.map_congr_left fun c _ => (hc c.y).2⟩

/-- A vector, a matrix of three columns and a list of four numbers. -/
example : (addAll {} [⟨.array [5], .array [5], none, 1, 0⟩, ⟨.array [10, 1], .array [10, 3], some 7, 2, 7⟩,
    ⟨.array [4], .pyList 4, none, 1, 0⟩]).ndatasets = 1 + (3 + (4 + 0)) :=
  (C34_columns [⟨.array [5], .array [5], none, 1, 0⟩, ⟨.array [10, 1], .array [10, 3], some 7, 2, 7⟩,
    ⟨.array [4], .pyList 4, none, 1, 0⟩]).1

/-- **C34 is false when `n` is given.** Whatever was stored before: a call that gives `n` adds a
data set but no entry to the list of counts, so the lists have different lengths from then on. -/
theorem C34_n_given_refuted (d : Data) (x y : DataArg) (k : ℕ) (w : ℚ) (u : ℤ) :
    (addDataSet d x y (some k) w u).n = d.n ∧
    (addDataSet d x y (some k) w u).nbatch = d.nbatch + 1 := by
  simp [addDataSet, Data.nbatch]

/-- **C34 is false for lists.** A list of `k` values counts as one observation, whatever `k` is. -/
theorem C34_list_refuted (d : Data) (x : DataArg) (k : ℕ) (w : ℚ) (u : ℤ) :
    (addDataSet d x (.pyList k) none w u).n = d.n ++ [1] := by
  simp [addDataSet, convertNumpyArrayTo2d, convertToNumpyArray]

example : ∃ calls : List DataCall, calls.length = 3 ∧
    (∀ c ∈ calls, c.n = none ∧ ∀ k, c.y = .pyList k → k = 1) ∧
    (addAll {} calls).n = [5, 10, 1] ∧ (addAll {} calls).ndatasets = 5 := by
  refine ⟨[⟨.array [5], .array [5], none, 1, 0⟩, ⟨.array [10, 1], .array [10, 3], none, 2, 7⟩,
    ⟨.scalar, .scalar, none, 1, 0⟩], rfl, ?_, by decide, by decide⟩
  intro c hc
  simp only [List.mem_cons, List.not_mem_nil, or_false] at hc
  rcases hc with rfl | rfl | rfl <;> refine ⟨rfl, fun k hk => ?_⟩ <;> cases hk

example : observations (.pyList 4) = 4 ∧
    (addAll {} [⟨.array [4], .pyList 4, none, 1, 0⟩]).n = [1] := by decide

end Verif
