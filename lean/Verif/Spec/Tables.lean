import Verif.Model.Tables
import Verif.Spec.NumberText

/-!
# What tables show

Vocabulary for the properties of printed statistics and of the Gelman-Rubin dictionary.
-/

namespace Verif

/-- the text `t` shows the number `x`: it reads back as a number at most 0.005 away (0.5 % for small
and large numbers), or names the special value -/
def Shows (t : List Char) : PyNum → Prop
  | .fin x => ∃ v, readNumber t = some v ∧ SignType.sign v = SignType.sign x ∧
      (|x| < 10000 → |v - x| ≤ 5 / 1000) ∧ (|x| ≤ 1 / 100 ∨ 10000 ≤ |x| → |v - x| ≤ 5 / 1000 * |x|)
  | .negZero => readNumber t = some 0
  | .nan => ∃ k, t = List.replicate k ' ' ++ "nan".toList
  | .inf neg => ∃ k, t = List.replicate k ' ' ++ (if neg then "-inf" else "inf").toList

/-- a line `name: t₁ t₂ t₃ t₄ t₅`, with the name at the right end of ten columns -/
def TableLine (line name : List Char) (t : Fin 5 → List Char) : Prop :=
  ∃ k, (k + name.length = 10 ∨ k = 0 ∧ 10 ≤ name.length) ∧
    line = List.replicate k ' ' ++ name ++ ": ".toList ++ t 0 ++ [' '] ++ t 1 ++ [' '] ++ t 2 ++ [' ']
      ++ t 3 ++ [' '] ++ t 4

/-- `name` is the name of parameter `i`: that of the results, or `$p_{i}$` if they have none for it -/
def IsNameOf (results : Option ResultNames) (i : ℕ) (name : List Char) : Prop :=
  name = match results with
    | some (some l) => l[i]?.getD (s!"$p_\{{i}}$").toList
    | _ => (s!"$p_\{{i}}$").toList

/-- the dictionary `r` has exactly the keys `names`, and under each of them the diagnostic of the last
parameter with this name -/
def FiledUnder {F : Type} [PyFloat F] {p : ℕ} (chains : List (List (Vec F p))) (n : ℕ)
    (names : List (List Char)) (r : List (List Char × Psrf F)) : Prop :=
  (∀ k, k ∈ r.map Prod.fst ↔ k ∈ names) ∧ (r.map Prod.fst).Nodup ∧ (names.Nodup → r.map Prod.fst = names) ∧
  ∀ (i : ℕ) (hp : i < p) (name : List Char), names[i]? = some name →
    (∀ j, i < j → names[j]? ≠ some name) →
    ∃ y, r.lookup name = some y ∧
      calculatePsrf (chains.map fun c => c.map fun row => row ⟨i, hp⟩) n chains.length = .ok y

end Verif
