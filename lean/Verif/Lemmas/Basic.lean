import Verif.Model.Mcmc

/-! # Helper lemmas: the exception monad, folds, list writes -/

set_option linter.unusedSectionVars false

namespace Verif

theorem ok_bind {ε α β : Type} (a : α) (f : α → Except ε β) : (Except.ok a >>= f) = f a := rfl

theorem bind_ok {ε α β : Type} {x : Except ε α} {f : α → Except ε β} {b : β} :
    (x >>= f) = .ok b ↔ ∃ a, x = .ok a ∧ f a = .ok b := by
  cases x with
  | error e => simp [bind, Except.bind]
  | ok a => simp [bind, Except.bind]

theorem foldlM_range'_inv {ε S : Type} {f : S → ℕ → Except ε S} {P : ℕ → S → Prop} :
    ∀ (k a : ℕ) (s s' : S), P a s →
    (∀ i s s', a ≤ i → i < a + k → P i s → f s i = .ok s' → P (i + 1) s') →
    (List.range' a k).foldlM f s = .ok s' → P (a + k) s'
  | 0, a, s, s', h0, _, h => by
      simp only [List.range'_zero, List.foldlM_nil] at h
      cases h; simpa using h0
  | k + 1, a, s, s', h0, hs, h => by
      rw [List.range'_succ, List.foldlM_cons, bind_ok] at h
      obtain ⟨s1, h1, h2⟩ := h
      have := foldlM_range'_inv k (a + 1) s1 s' (hs a s s1 le_rfl (by omega) h0 h1)
        (fun i s s' hi hi' => hs i s s' (by omega) (by omega)) h2
      rwa [show a + (k + 1) = a + 1 + k by omega]

theorem foldlM_list_inv {ε S α : Type} {f : S → α → Except ε S} {P : S → Prop} :
    ∀ (l : List α) (s s' : S), P s →
    (∀ a ∈ l, ∀ s s', P s → f s a = .ok s' → P s') →
    l.foldlM f s = .ok s' → P s'
  | [], s, s', h0, _, h => by
      simp only [List.foldlM_nil] at h
      cases h; exact h0
  | a :: l, s, s', h0, hs, h => by
      rw [List.foldlM_cons, bind_ok] at h
      obtain ⟨s1, h1, h2⟩ := h
      exact foldlM_list_inv l s1 s' (hs a (by simp) s s1 h0 h1)
        (fun b hb => hs b (by simp [hb])) h2

theorem pySet_ok {α : Type} {l l' : List α} {i : ℕ} {x : α} :
    pySet l i x = .ok l' ↔ i < l.length ∧ l' = l.set i x := by
  unfold pySet; split <;> simp_all [eq_comm]

theorem pyGet_ok {α : Type} {l : List α} {i : ℕ} {x : α} :
    pyGet l i = .ok x ↔ l[i]? = some x := by
  unfold pyGet; split <;> simp_all

theorem orRaise_ok {α : Type} {o : Option α} {e : PyErr} {x : α} :
    orRaise o e = .ok x ↔ o = some x := by
  unfold orRaise; split <;> simp_all

end Verif
