import Verif.Model.ChainMetrics

/-!
# Property C137: path and histogram of the chain of one parameter
-/

set_option linter.unusedSectionVars false

namespace Verif
variable {F : Type}

/-- **C137, full statement:** `plot_chain_metrics(chain, name)` draws the point `(k, chain[k])` for every row `k`
above a histogram of all values, and the title and the three labels contain the name of the parameter: the string
given, or the default name `$p_{0}$`.  **Proved here:** this holds for every name given as a string that is not
empty; what is drawn is right whenever the function returns.  For other forms of the name see
`C137_default_refuted`, `C137_empty_refuted`. -/
theorem C137_metrics_partial (chain : List F) :
    (∀ s : List Char, s ≠ [] → ∃ f, plotChainMetrics chain (.str s) = .ok f ∧
      f.suptitle = "Chain metrics for ".toList ++ s ∧ f.path.ylabel = s ++ "-chain".toList ∧
      f.histogram.xlabel = s ∧ f.histogram.ylabel = "Histogram of ".toList ++ s ++ "-chain".toList) ∧
    ∀ name f, plotChainMetrics chain name = .ok f →
      f.path.content.length = chain.length ∧
      (∀ k (hk : k < chain.length), f.path.content[k]? = some (k, chain[k])) ∧
      f.histogram.content = chain ∧ f.path.xlabel = "Iterations".toList ∧
      (f.path.rows, f.path.cols, f.path.index) = (2, 1, 1) ∧
      (f.histogram.rows, f.histogram.cols, f.histogram.index) = (2, 1, 2) := by
  constructor
  · intro s hs
    cases s with
    | nil => exact absurd rfl hs
    | cons c s => exact ⟨_, rfl, rfl, rfl, rfl, rfl⟩
  · intro name f h
    unfold plotChainMetrics at h
    cases hn : metricsName name with
    | error e => rw [hn] at h; cases h
    | ok t =>
      rw [hn] at h
      cases h
      refine ⟨by simp, fun k hk => ?_, rfl, rfl, rfl, rfl⟩
      simp [hk]

/-- **Refutation of C137:** without a name, the title and the labels contain the name in brackets and quotation
marks: `['$p_{0}$']` is the text of the list of default names. -/
theorem C137_default_refuted (chain : List F) : ∃ f, plotChainMetrics chain .none = .ok f ∧
    f.suptitle = "Chain metrics for ['$p_{0}$']".toList ∧ f.histogram.xlabel = "['$p_{0}$']".toList ∧
    f.path.ylabel ≠ "$p_{0}$-chain".toList := by
  have e : listText (generateNames 1 none) = "['$p_{0}$']".toList := by decide +kernel
  refine ⟨_, rfl, ?_, ?_, ?_⟩ <;> dsimp only <;> rw [e] <;> decide +kernel

/-- **Refutation of C137:** names given in a list appear in brackets and quotation marks too, separated by commas;
an empty list is replaced by the list of the default name. -/
theorem C137_list_refuted (chain : List F) :
    (∃ f, plotChainMetrics chain (.list []) = .ok f ∧ f.histogram.xlabel = "['$p_{0}$']".toList) ∧
    (∀ a, ∃ f, plotChainMetrics chain (.list [a]) = .ok f ∧
      f.histogram.xlabel = "['".toList ++ a ++ "']".toList ∧
      f.suptitle = "Chain metrics for ['".toList ++ a ++ "']".toList) ∧
    ∀ a b, ∃ f, plotChainMetrics chain (.list [a, b]) = .ok f ∧
      f.histogram.xlabel = "['".toList ++ a ++ "', '".toList ++ b ++ "']".toList := by
  have e : listText (generateNames 1 (some [])) = "['$p_{0}$']".toList := by decide +kernel
  refine ⟨⟨_, rfl, e⟩, fun a => ⟨_, rfl, ?_, ?_⟩, fun a b => ⟨_, rfl, ?_⟩⟩ <;>
    simp [listText, generateNames, extendNames, List.intercalate]

/-- **Refutation of C137:** the empty string raises `AttributeError`. -/
theorem C137_empty_refuted (chain : List F) : plotChainMetrics chain (.str []) = .error .attributeError := rfl

example : ∃ f, plotChainMetrics [3, 1, (2 : ℚ)] (.str "mu".toList) = .ok f ∧
    f.suptitle = "Chain metrics for mu".toList ∧ f.path.content = [(0, 3), (1, 1), (2, 2)] :=
  ⟨_, rfl, by decide +kernel, by decide +kernel⟩

end Verif
