import Verif.Model.LogFiles
import Mathlib.Data.List.Lex
import Mathlib.Tactic.Linarith

/-! # Lexicographic order of decimal numbers -/

namespace Verif

theorem lt_append_of_length_eq {α : Type} [LT α] : ∀ {l₁ l₂ : List α}, l₁.length = l₂.length →
    l₁ < l₂ → ∀ s t, l₁ ++ s < l₂ ++ t
  | [], [], _, h, _, _ => by cases h
  | [], _ :: _, h, _, _, _ => by simp at h
  | _ :: _, [], h, _, _, _ => by simp at h
  | a :: l₁, b :: l₂, hl, h, s, t => by
      cases h with
      | rel h => exact List.Lex.rel h
      | cons h => exact List.Lex.cons (lt_append_of_length_eq (by simpa using hl) h s t)

theorem digitChar_lt {a b : ℕ} (hb : b < 10) (h : a < b) : a.digitChar < b.digitChar := by
  have : ∀ i j : Fin 10, i < j → (i : ℕ).digitChar < (j : ℕ).digitChar := by decide
  exact this ⟨a, by omega⟩ ⟨b, hb⟩ h

theorem dec_lt_base {n : ℕ} (h : n < 10) : dec n = [n.digitChar] := Nat.toDigits_of_lt_base h

theorem dec_step {n : ℕ} (h : 10 ≤ n) : dec n = dec (n / 10) ++ [(n % 10).digitChar] :=
  Nat.toDigits_of_base_le (by omega) h

theorem dec_length_pos (n : ℕ) : 1 ≤ (dec n).length := by
  by_cases h : n < 10
  · rw [dec_lt_base h]; simp
  · rw [dec_step (by omega)]; simp

theorem dec_lt {b : ℕ} : ∀ {a : ℕ}, (dec a).length = (dec b).length → a < b → dec a < dec b := by
  induction b using Nat.strong_induction_on with
  | _ b ih =>
    intro a hl h
    by_cases hb : b < 10
    · rw [dec_lt_base hb, dec_lt_base (by omega)]
      exact List.Lex.rel (digitChar_lt hb h)
    · by_cases ha : a < 10
      · rw [dec_lt_base ha, dec_step (n := b) (by omega)] at hl
        have := dec_length_pos (b / 10)
        simp only [List.length_append, List.length_singleton] at hl
        omega
      · rw [dec_step (n := b) (by omega), dec_step (n := a) (by omega)] at hl ⊢
        simp only [List.length_append, List.length_singleton, Nat.add_right_cancel_iff] at hl
        by_cases he : a / 10 = b / 10
        · rw [he]
          exact List.append_left_lt (List.Lex.rel (digitChar_lt (Nat.mod_lt _ (by omega)) (by omega)))
        · exact lt_append_of_length_eq hl (ih (b / 10) (by omega) hl (by omega)) _ _

theorem dec_zero_lt {b : ℕ} : 1 ≤ b → ∀ s t, dec 0 ++ s < dec b ++ t := by
  induction b using Nat.strong_induction_on with
  | _ b ih =>
    intro h s t
    by_cases hb : b < 10
    · rw [dec_lt_base hb, dec_lt_base (by omega)]
      exact List.Lex.rel (digitChar_lt hb h)
    · rw [dec_step (n := b) (by omega), List.append_assoc]
      exact ih (b / 10) (by omega) (by omega) _ _

/-- numbers below ten sort numerically -/
theorem dec_lt_ten {a b : ℕ} (hb : b < 10) (h : a < b) : dec a < dec b := by
  rw [dec_lt_base hb, dec_lt_base (by omega)]
  exact List.Lex.rel (digitChar_lt hb h)

theorem mem_dec {n : ℕ} {c : Char} (h : c ∈ dec n) : c.isDigit = true :=
  Nat.isDigit_of_mem_toDigits (by omega) (by omega) h

theorem dec_injective {b : ℕ} : ∀ {a : ℕ}, dec a = dec b → a = b := by
  intro a h
  rcases Nat.lt_trichotomy a b with hlt | he | hlt
  · have := dec_lt (by rw [h]) hlt
    rw [h] at this
    exact absurd this (List.lt_irrefl _)
  · exact he
  · have := dec_lt (by rw [h]) hlt
    rw [h] at this
    exact absurd this (List.lt_irrefl _)

theorem datasetName_lt {a b x y : ℕ} (h : a < b)
    (hd : a = 0 ∨ (dec a).length = (dec b).length) : datasetName a x < datasetName b y := by
  unfold datasetName
  simp only [List.append_assoc]
  refine List.append_left_lt (List.append_left_lt ?_)
  rcases hd with rfl | hd
  · exact dec_zero_lt h _ _
  · exact lt_append_of_length_eq hd (dec_lt hd h) _ _

end Verif
