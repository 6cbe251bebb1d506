import Verif.Lemmas.Decimal
import Verif.Lemmas.Logs

/-! # Reading back log files -/

set_option linter.unusedSectionVars false

namespace Verif
variable {F σ : Type} [PyFloat F] {N n m : ℕ} {flags : Fin N → Bool}

/-- all blocks have `L` rows, the last at most `L` -/
def Fits {α : Type} (L : ℕ) : List (List α) → Prop
  | [] => True
  | [r] => r.length ≤ L
  | r :: s :: rest => r.length = L ∧ Fits L (s :: rest)

theorem Fits.tail {α : Type} {L : ℕ} {r : List α} : ∀ {rest : List (List α)},
    Fits L (r :: rest) → Fits L rest
  | [], _ => trivial
  | _ :: _, h => h.2

theorem fits_of {α : Type} {L : ℕ} {l : List (List α)} {r : List α} (h : ∀ x ∈ l, x.length = L)
    (hr : r.length ≤ L) : Fits L (l ++ [r]) := by
  induction l with
  | nil => exact hr
  | cons x l ih =>
    have := ih fun y hy => h y (List.mem_cons_of_mem _ hy)
    cases l with
    | nil => exact ⟨h x (by simp), this⟩
    | cons y l => exact ⟨h x (by simp), this⟩

theorem readLoop_ok {α : Type} {L : ℕ} : ∀ (rest : List (List α)) (done z : List α) (a b prev : ℕ),
    a + prev = done.length → b = a + L → z.length = rest.flatten.length → Fits L rest →
    readLoop (done ++ z) a b prev rest = .ok (done ++ rest.flatten)
  | [], done, z, a, b, prev, _, _, hz, _ => by
      have : z = [] := List.length_eq_zero_iff.1 (by simpa using hz)
      rw [this]; rfl
  | rows :: rest, done, z, a, b, prev, hd, hb, hz, hf => by
      unfold readLoop
      rw [List.flatten_cons, List.length_append] at hz
      have hw : min (b + prev) (done ++ z).length - min (a + prev) (done ++ z).length = rows.length := by
        rw [List.length_append]
        cases rest with
        | nil =>
          have : rows.length ≤ L := hf
          simp only [List.flatten_nil, List.length_nil, Nat.add_zero] at hz
          omega
        | cons s rest =>
          have : rows.length = L := hf.1
          omega
      have he : assignRows (done ++ z) (a + prev) (b + prev) rows =
          .ok ((done ++ rows) ++ z.drop rows.length) := by
        unfold assignRows
        rw [hw]
        dsimp only
        rw [if_pos rfl, hd, List.take_left, List.drop_append, List.drop_of_length_le (by omega),
          Nat.add_sub_cancel_left]
        simp
      rw [he]
      change readLoop ((done ++ rows) ++ z.drop rows.length) (a + prev) (b + prev) rows.length rest = _
      rw [readLoop_ok (L := L) rest (done ++ rows) (z.drop rows.length) (a + prev) (b + prev) rows.length
        (by simp [hd]) (by omega) (by rw [List.length_drop]; omega) hf.tail]
      simp

theorem mergeDatasets_ok {d : List (Vec F n)} {rest : List (List (Vec F n))}
    (hf : Fits d.length (d :: rest)) :
    mergeDatasets (d :: rest) = .ok (d :: rest).flatten := by
  unfold mergeDatasets
  dsimp only
  have hlen : (zeroRows (n := n) (F := F) ((d :: rest).map List.length).sum).length =
      d.length + rest.flatten.length := by
    unfold zeroRows
    rw [List.length_replicate, List.map_cons, List.sum_cons, List.length_flatten]
  generalize zeroRows (n := n) (F := F) ((d :: rest).map List.length).sum = z at hlen ⊢
  have he : assignRows z 0 d.length d = .ok (d ++ z.drop d.length) := by
    unfold assignRows
    dsimp only
    rw [if_pos (by omega)]
    congr 1
    rw [List.take_zero, List.nil_append, show 0 + (min d.length z.length - min 0 z.length) = d.length by omega]
  rw [he]
  change readLoop (d ++ z.drop d.length) 0 d.length d.length rest = _
  rw [readLoop_ok (L := d.length) rest d (z.drop d.length) 0 d.length d.length (by simp) (by simp)
    (by rw [List.length_drop]; omega) hf.tail, List.flatten_cons]

/-- writing blocks with increasing names -/
theorem saveBin_ok {bs : List (LogBlock F n m)} : ∀ (d : BinLogs F n m) (_ :
    (∀ b ∈ bs, datasetName b.start b.stop ∉ (d.chain.getD []).map Prod.fst ∧
      datasetName b.start b.stop ∉ (d.sschain.getD []).map Prod.fst ∧
      datasetName b.start b.stop ∉ (d.s2chain.getD []).map Prod.fst))
    (_ : bs.Pairwise fun a b => datasetName a.start a.stop ≠ datasetName b.start b.stop)
    (_ : bs ≠ []),
    ∃ d', bs.foldlM saveBin d = .ok d' ∧
      d'.chain = some (d.chain.getD [] ++ bs.map fun b => (datasetName b.start b.stop, b.chain)) ∧
      d'.sschain = some (d.sschain.getD [] ++ bs.map fun b => (datasetName b.start b.stop, b.sschain)) ∧
      ((∀ b ∈ bs, b.s2chain.isSome) → d'.s2chain = some (d.s2chain.getD [] ++ bs.map fun b =>
        (datasetName b.start b.stop, b.s2chain.getD []))) ∧
      ((∀ b ∈ bs, b.s2chain = none) → d'.s2chain = d.s2chain) := by
  induction bs with
  | nil => intro d _ _ h; exact absurd rfl h
  | cons b bs ih =>
    intro d hnew hp _
    obtain ⟨h1, h2, h3⟩ := hnew b (by simp)
    have hp' := List.pairwise_cons.1 hp
    obtain ⟨s2, hs2⟩ : ∃ s2, saveBinS2 d.s2chain (datasetName b.start b.stop) b.s2chain = .ok s2 ∧
        (s2.getD []).map Prod.fst ⊆ datasetName b.start b.stop :: (d.s2chain.getD []).map Prod.fst ∧
        (∀ x, b.s2chain = some x → s2 = some (d.s2chain.getD [] ++ [(datasetName b.start b.stop, x)])) ∧
        (b.s2chain = none → s2 = d.s2chain) := by
      unfold saveBinS2
      cases hb : b.s2chain with
      | none => exact ⟨_, rfl, by simp, by simp, by simp⟩
      | some x =>
        refine ⟨some (d.s2chain.getD [] ++ [(datasetName b.start b.stop, x)]),
          by dsimp only; unfold saveToBinFile; rw [if_neg h3], ?_, ?_, by simp⟩
        · intro y hy
          simp only [Option.getD_some, List.map_append, List.map_cons, List.map_nil,
            List.mem_append, List.mem_singleton] at hy
          rcases hy with hy | hy
          · exact List.mem_cons_of_mem _ hy
          · rw [hy]; exact List.mem_cons_self
        · intro y hy; cases hy; rfl
    have he : saveBin d b = .ok ⟨some (d.chain.getD [] ++ [(datasetName b.start b.stop, b.chain)]),
        some (d.sschain.getD [] ++ [(datasetName b.start b.stop, b.sschain)]), s2⟩ := by
      unfold saveBin saveToBinFile
      rw [if_neg h1, if_neg h2, hs2.1]; rfl
    rw [List.foldlM_cons, he]
    change ∃ d', bs.foldlM saveBin _ = .ok d' ∧ _
    cases hbs : bs with
    | nil =>
      refine ⟨_, rfl, rfl, rfl, fun h => ?_, fun h => hs2.2.2.2 (h b (by simp))⟩
      obtain ⟨x, hx⟩ := Option.isSome_iff_exists.1 (h b (by simp))
      rw [hs2.2.2.1 x hx]; simp [hx]
    | cons b' bs' =>
      rw [← hbs]
      obtain ⟨d', e1, e2, e3, e4, e5⟩ := ih
        ⟨some (d.chain.getD [] ++ [(datasetName b.start b.stop, b.chain)]),
        some (d.sschain.getD [] ++ [(datasetName b.start b.stop, b.sschain)]), s2⟩
        (fun c hc => by
          obtain ⟨g1, g2, g3⟩ := hnew c (by simp [hc])
          have hne := hp'.1 c hc
          refine ⟨?_, ?_, ?_⟩
          · simp only [Option.getD_some, List.map_append, List.map_cons, List.map_nil,
              List.mem_append, List.mem_singleton]
            rintro (h | h); exacts [g1 h, hne h.symm]
          · simp only [Option.getD_some, List.map_append, List.map_cons, List.map_nil,
              List.mem_append, List.mem_singleton]
            rintro (h | h); exacts [g2 h, hne h.symm]
          · intro h
            rcases List.mem_cons.1 (hs2.2.1 h) with h | h; exacts [hne h.symm, g3 h])
        hp'.2 (by rw [hbs]; simp)
      refine ⟨d', e1, ?_, ?_, ?_, ?_⟩
      · rw [e2]; simp
      · rw [e3]; simp
      · intro h
        rw [e4 fun c hc => h c (by simp [hc])]
        obtain ⟨x, hx⟩ := Option.isSome_iff_exists.1 (h b (by simp))
        rw [hs2.2.2.1 x hx]; simp [hx]
      · intro h
        rw [e5 fun c hc => h c (by simp [hc])]
        exact hs2.2.2.2 (h b (by simp))

theorem readInBinFile_ok {l : List (List Char × List (Vec F n))}
    (hs : l.Pairwise fun x y => x.1 < y.1) {d : List (Vec F n)} {rest : List (List (Vec F n))}
    (hl : l.map Prod.snd = d :: rest) (hf : Fits d.length (d :: rest)) :
    readInBinFile (some l) = some (l.map Prod.snd).flatten := by
  unfold readInBinFile h5sorted
  dsimp only
  rw [List.Pairwise.insertionSort_eq (hs.imp fun h => List.le_of_lt h), hl, mergeDatasets_ok hf]
  rfl

/-- appending blocks to text files -/
theorem saveTxt_ok {bs : List (LogBlock F n m)} : ∀ (d : TxtLogs F n m), bs ≠ [] →
    (bs.foldl saveTxt d).chain = some (d.chain.getD [] ++ bs.flatMap fun b => b.chain) ∧
    (bs.foldl saveTxt d).sschain = some (d.sschain.getD [] ++ bs.flatMap fun b => b.sschain) ∧
    ((∀ b ∈ bs, b.s2chain.isSome) → (bs.foldl saveTxt d).s2chain =
      some (d.s2chain.getD [] ++ bs.flatMap fun b => b.s2chain.getD [])) ∧
    ((∀ b ∈ bs, b.s2chain = none) → (bs.foldl saveTxt d).s2chain = d.s2chain) := by
  induction bs with
  | nil => intro d h; exact absurd rfl h
  | cons b bs ih =>
    intro d _
    rw [List.foldl_cons]
    have key : ∀ x, b.s2chain = some x → (saveTxt d b).s2chain = some (d.s2chain.getD [] ++ x) := by
      intro x hx; unfold saveTxt; simp [hx, saveToTxtFile]
    have key' : b.s2chain = none → (saveTxt d b).s2chain = d.s2chain := by
      intro hx; unfold saveTxt; simp [hx]
    cases hbs : bs with
    | nil =>
      refine ⟨by simp [saveTxt, saveToTxtFile], by simp [saveTxt, saveToTxtFile], ?_, ?_⟩
      · intro h
        obtain ⟨x, hx⟩ := Option.isSome_iff_exists.1 (h b (by simp))
        simp [key x hx, hx]
      · intro h; exact key' (h b (by simp))
    | cons c cs =>
      rw [← hbs]
      obtain ⟨e1, e2, e3, e4⟩ := ih (saveTxt d b) (by rw [hbs]; simp)
      refine ⟨?_, ?_, ?_, ?_⟩
      · rw [e1]; simp [saveTxt, saveToTxtFile]
      · rw [e2]; simp [saveTxt, saveToTxtFile]
      · intro h
        rw [e3 fun c hc => h c (by simp [hc])]
        obtain ⟨x, hx⟩ := Option.isSome_iff_exists.1 (h b (by simp))
        simp [key x hx, hx]
      · intro h
        rw [e4 fun c hc => h c (by simp [hc])]
        exact key' (h b (by simp))

end Verif
