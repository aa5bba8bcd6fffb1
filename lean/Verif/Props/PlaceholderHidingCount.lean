import Verif.Props.PlaceholderHidingExample

/-!
# C104: the values seen of the witness columns are equally likely for all witnesses
-/

set_option linter.unusedSectionVars false

namespace Crypto3Zk

open Polynomial

/-- The values the padding draws: the first `N` are `r`, those after them `rest`. -/
def drawn {F : Type} {N : Nat} (r : Fin N → F) (rest : Nat → F) (k : Nat) : F :=
  if h : k < N then r ⟨k, h⟩ else rest k

section
variable {F : Type} [Field F] [DecidableEq F] {L : FftLib F} {A n : Nat}

/-- **C104** in part, as a statement about chances: fix the values that do not pad the witness in any way (`rest`).
Whatever values `seen` of the columns at the points, and whatever else is known of the public parts of the padded table
(`known`), there are as many choices of the values that pad the witness for which one sees this with the one witness as
there are with the other. The field is finite in use, so that the numbers are finite. -/
theorem C104_same_count_partial (hL : L.Lawful A) (hn : n ≤ A) {T1 T2 : PlonkTable F} (hT : SamePublic T1 T2)
    (hrows : T1.rowsAmount < 2 ^ 31) (hp : paddedRows T1.rowsAmount = some (2 ^ n)) (Z : Nat → Finset F)
    (hcard : ∀ i, (Z i).card + T1.rowsAmount ≤ 2 ^ n) (hZ : ∀ i, ∀ z ∈ Z i, z ^ 2 ^ n ≠ 1)
    {N : Nat} (hN : N = T1.witnesses.length * (2 ^ n - T1.rowsAmount)) (rest : Nat → F) (seen : Nat → F → F)
    (known : PlonkTable F → Prop) (hk : ∀ t t', SamePublic t t' → (known t ↔ known t')) :
    Nat.card {r : Fin N → F // ∃ t, zkPadding (drawn r rest) T1 = some (t, 2 ^ n) ∧ known t ∧
        ∀ i, ∀ z ∈ Z i, (columnPoly L t i .witness).eval z = seen i z} =
      Nat.card {r : Fin N → F // ∃ t, zkPadding (drawn r rest) T2 = some (t, 2 ^ n) ∧ known t ∧
        ∀ i, ∀ z ∈ Z i, (columnPoly L t i .witness).eval z = seen i z} := by
  obtain ⟨shift, h0, h⟩ := C104_columns_hidden_partial hL hn hT hrows hp Z hcard hZ
  refine Nat.card_congr (Equiv.subtypeEquiv (Equiv.addRight fun k : Fin N => shift k) fun r => ?_)
  have hd : drawn (Equiv.addRight (fun k : Fin N => shift k) r) rest = fun k => drawn r rest k + shift k := by
    funext k
    unfold drawn
    split
    · rfl
    · rw [h0 k (by omega), add_zero]
  obtain ⟨t1, t2, e1, e2, hs, hv⟩ := h (drawn r rest)
  rw [hd]
  constructor
  · rintro ⟨t, ht, hkn, hse⟩
    obtain rfl : t1 = t := (Prod.mk.inj (Option.some.inj (e1.symm.trans ht))).1
    exact ⟨t2, e2, (hk _ _ hs).1 hkn, fun i z hz => (hv i z hz).symm.trans (hse i z hz)⟩
  · rintro ⟨t, ht, hkn, hse⟩
    obtain rfl : t2 = t := (Prod.mk.inj (Option.some.inj (e2.symm.trans ht))).1
    exact ⟨t1, e1, (hk _ _ hs).2 hkn, fun i z hz => (hv i z hz).trans (hse i z hz)⟩

/-- **C104** in part, as a statement about chances: fix the values that do not pad the witness in any way (`rest`), and
what is known of the public parts of the padded table (`known`). Whatever values of the witness columns at the points are
seen, with the one witness (`seen`) or with the other (`seen'`), they are seen for equally many choices of the values
that pad the witness. So what is seen is distributed uniformly, whatever the witness. The field is finite in use, so that
the numbers are finite. -/
theorem C104_uniform_partial (hL : L.Lawful A) (hn : n ≤ A) {T1 T2 : PlonkTable F} (hT : SamePublic T1 T2)
    (hrows : T1.rowsAmount < 2 ^ 31) (hp : paddedRows T1.rowsAmount = some (2 ^ n)) (Z : Nat → Finset F)
    (hcard : ∀ i, (Z i).card + T1.rowsAmount ≤ 2 ^ n) (hZ : ∀ i, ∀ z ∈ Z i, z ^ 2 ^ n ≠ 1)
    {N : Nat} (hN : N = T1.witnesses.length * (2 ^ n - T1.rowsAmount)) (rest : Nat → F) (seen seen' : Nat → F → F)
    (known : PlonkTable F → Prop) (hk : ∀ t t', SamePublic t t' → (known t ↔ known t')) :
    Nat.card {r : Fin N → F // ∃ t, zkPadding (drawn r rest) T1 = some (t, 2 ^ n) ∧ known t ∧
        ∀ i < T1.witnesses.length, ∀ z ∈ Z i, (columnPoly L t i .witness).eval z = seen i z} =
      Nat.card {r : Fin N → F // ∃ t, zkPadding (drawn r rest) T2 = some (t, 2 ^ n) ∧ known t ∧
        ∀ i < T1.witnesses.length, ∀ z ∈ Z i, (columnPoly L t i .witness).eval z = seen' i z} := by
  obtain ⟨shift, h0, h⟩ := columns_shifted hL hn hT hrows hp Z hcard hZ (fun i z => seen' i z - seen i z)
  refine Nat.card_congr (Equiv.subtypeEquiv (Equiv.addRight fun k : Fin N => shift k) fun r => ?_)
  have hd : drawn (Equiv.addRight (fun k : Fin N => shift k) r) rest = fun k => drawn r rest k + shift k := by
    funext k
    unfold drawn
    split
    · rfl
    · rw [h0 k (by omega), add_zero]
  obtain ⟨t1, t2, e1, e2, hs, hv⟩ := h (drawn r rest)
  rw [hd]
  constructor
  · rintro ⟨t, ht, hkn, hse⟩
    obtain rfl : t1 = t := (Prod.mk.inj (Option.some.inj (e1.symm.trans ht))).1
    refine ⟨t2, e2, (hk _ _ hs).1 hkn, fun i hi z hz => ?_⟩
    rw [hv i z hz, hse i hi z hz, if_pos hi]
    ring
  · rintro ⟨t, ht, hkn, hse⟩
    obtain rfl : t2 = t := (Prod.mk.inj (Option.some.inj (e2.symm.trans ht))).1
    refine ⟨t1, e1, (hk _ _ hs).2 hkn, fun i hi z hz => ?_⟩
    have h := hv i z hz
    rw [hse i hi z hz, if_pos hi] at h
    linear_combination -h
end

/-- The hypotheses are met: two witnesses of five rows, padded to eight, each seen at the three points `3`, `12` and `5`
with the value `1` there. -/
example (rest : Nat → ZMod 257) :
    Nat.card {r : Fin 3 → ZMod 257 // ∃ t,
      zkPadding (drawn r rest) ⟨[[2, 3, 5, 7, 11]], [[4]], [], []⟩ = some (t, 2 ^ 3) ∧
      t.publicInputs = [[4, 0, 0, 0, 0, 0, 0, 0]] ∧ ∀ i, ∀ z ∈ ({3, 12, 5} : Finset (ZMod 257)),
        (columnPoly (FftLib.ofRoots exRoots257) t i .witness).eval z = 1} =
    Nat.card {r : Fin 3 → ZMod 257 // ∃ t,
      zkPadding (drawn r rest) ⟨[[1, 1, 1, 1, 1]], [[4]], [], []⟩ = some (t, 2 ^ 3) ∧
      t.publicInputs = [[4, 0, 0, 0, 0, 0, 0, 0]] ∧ ∀ i, ∀ z ∈ ({3, 12, 5} : Finset (ZMod 257)),
        (columnPoly (FftLib.ofRoots exRoots257) t i .witness).eval z = 1} :=
  C104_same_count_partial (n := 3) exLib257_lawful (by norm_num)
    (T1 := ⟨[[2, 3, 5, 7, 11]], [[4]], [], []⟩) (T2 := ⟨[[1, 1, 1, 1, 1]], [[4]], [], []⟩)
    ⟨rfl, rfl, rfl, rfl, rfl⟩ (by decide) (by decide +kernel) (fun _ => {3, 12, 5})
    (fun _ => by decide +kernel) (fun _ => by decide +kernel) (by decide) rest (fun _ _ => 1)
    (fun t => t.publicInputs = [[4, 0, 0, 0, 0, 0, 0, 0]]) (fun t t' h => by rw [h.publicInputs])

/-- The hypotheses are met: the values `1` with the one witness are as likely as the values `2 z` with the other. -/
example (rest : Nat → ZMod 257) :
    Nat.card {r : Fin 3 → ZMod 257 // ∃ t,
      zkPadding (drawn r rest) ⟨[[2, 3, 5, 7, 11]], [[4]], [], []⟩ = some (t, 2 ^ 3) ∧ True ∧
      ∀ i < 1, ∀ z ∈ ({3, 12, 5} : Finset (ZMod 257)),
        (columnPoly (FftLib.ofRoots exRoots257) t i .witness).eval z = 1} =
    Nat.card {r : Fin 3 → ZMod 257 // ∃ t,
      zkPadding (drawn r rest) ⟨[[1, 1, 1, 1, 1]], [[4]], [], []⟩ = some (t, 2 ^ 3) ∧ True ∧
      ∀ i < 1, ∀ z ∈ ({3, 12, 5} : Finset (ZMod 257)),
        (columnPoly (FftLib.ofRoots exRoots257) t i .witness).eval z = 2 * z} :=
  C104_uniform_partial (n := 3) exLib257_lawful (by norm_num)
    (T1 := ⟨[[2, 3, 5, 7, 11]], [[4]], [], []⟩) (T2 := ⟨[[1, 1, 1, 1, 1]], [[4]], [], []⟩)
    ⟨rfl, rfl, rfl, rfl, rfl⟩ (by decide) (by decide +kernel) (fun _ => {3, 12, 5})
    (fun _ => by decide +kernel) (fun _ => by decide +kernel) (by decide) rest (fun _ _ => 1) (fun _ z => 2 * z)
    (fun _ => True) (fun _ _ _ => Iff.rfl)

end Crypto3Zk
