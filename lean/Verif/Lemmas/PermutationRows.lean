import Verif.Lemmas.PermutationCells
import Verif.Lemmas.GrandProduct

/-!
# The permutation argument row by row
-/

namespace Crypto3Zk

set_option linter.unusedSectionVars false

open Equiv.Perm

variable {F : Type} [Field F] {S : Type} {L : FftLib F} {A : Nat}

theorem list_prod_range {α : Type} (d : α) (f : α → F) : ∀ l : List α,
    (l.map f).prod = ∏ i ∈ Finset.range l.length, f (l.getD i d) := by
  intro l
  induction l with
  | nil => simp
  | cons a l ih =>
    rw [List.map_cons, List.prod_cons, ih, List.length_cons, Finset.prod_range_succ']
    simp [mul_comm]

theorem prod_permCells (gi : List Nat) (usable : Nat) (hnd : gi.Nodup)
    (hb : ∀ c ∈ gi, c < 2 ^ 32) (hu : usable ≤ 2 ^ 32) (f : CellKey → F) :
    ∏ k ∈ permCells gi usable, f k =
      ∏ j ∈ Finset.range usable, ∏ i ∈ Finset.range gi.length, f (mkKey (gi.getD i 0) j) := by
  unfold permCells
  rw [Finset.prod_image, Finset.prod_product_right]
  rintro ⟨i, j⟩ h1 ⟨i', j'⟩ h2 he
  simp only [Finset.coe_product, Finset.coe_range, Set.mem_prod, Set.mem_Iio] at h1 h2
  have hg : ∀ i < gi.length, gi.getD i 0 < 2 ^ 32 := by
    intro i hi
    rw [List.getD_eq_getElem _ _ hi]
    exact hb _ (List.getElem_mem hi)
  obtain ⟨a1, a2⟩ := mkKey_val (gi.getD i 0) j (hg i h1.1) (by omega)
  obtain ⟨b1, b2⟩ := mkKey_val (gi.getD i' 0) j' (hg i' h2.1) (by omega)
  simp only at he
  have e1 : gi.getD i 0 = gi.getD i' 0 := by rw [← a1, ← b1, he]
  have e2 : j = j' := by rw [← a2, ← b2, he]
  rw [List.getD_eq_getElem _ _ h1.1, List.getD_eq_getElem _ _ h2.1] at e1
  have := (List.nodup_iff_injective_getElem.1 hnd) (a₁ := ⟨i, h1.1⟩) (a₂ := ⟨i', h2.1⟩) e1
  simp only [Fin.mk.injEq] at this
  rw [this, e2]

theorem card_permCells_le (gi : List Nat) (usable : Nat) :
    (permCells gi usable).card ≤ gi.length * usable := by
  unfold permCells
  apply Finset.card_image_le.trans
  simp

/-- The value of the table in a cell. -/
def cellVal (L : FftLib F) (n : Nat) (column : Nat → Option (List F)) (k : CellKey) : F :=
  columnValue L n column k.1.val k.2.val

theorem sameCycle_val {K : Type} (σ : Equiv.Perm K) (val : K → F) (h : ∀ k, val (σ k) = val k)
    (u v : K) (hs : SameCycle σ u v) : val u = val v := by
  obtain ⟨i, rfl⟩ := hs
  have key : ∀ (m : Nat) (k : K), val ((σ ^ m) k) = val k := by
    intro m
    induction m with
    | zero => intro k; rfl
    | succ m ih => intro k; rw [pow_succ', Equiv.Perm.mul_apply, h, ih]
  cases i with
  | ofNat m => exact (key m u).symm
  | negSucc m =>
    rw [zpow_negSucc]
    have h1 := key (m + 1) ((σ ^ (m + 1))⁻¹ u)
    have h2 : (σ ^ (m + 1)) ((σ ^ (m + 1))⁻¹ u) = u := (σ ^ (m + 1)).apply_symm_apply u
    rw [h2] at h1
    exact h1

section

variable {n : Nat} {d : TableDesc} {cs : List (PlonkVar × PlonkVar)}
    {order : List PlonkVar} {gi : List Nat} {delta : F} {mqc : Nat} {pre : PermData F}
    {σ : Equiv.Perm CellKey}

/-- Invariance under the permutation is the same as the copy constraints. -/
theorem PermSetup.invariant_iff (h : PermSetup L A n d cs order gi delta mqc pre)
    (hf : PermFacts L n d cs gi delta mqc pre σ) (column : Nat → Option (List F)) :
    (∀ k, cellVal L n column (σ k) = cellVal L n column k) ↔
      CopiesHold d cs (columnValue L n column) := by
  have hw : d.witness + d.publicInput + d.constant ≤ 2 ^ 32 := by
    have := h.width
    unfold TableDesc.width at this
    omega
  have hval : ∀ c ∈ cs, ∀ v, v = c.1 ∨ v = c.2 → ∀ x, d.cellOf v = some x →
      cellVal L n column (mkKey x.1 x.2.toNat) = columnValue L n column x.1 x.2 := by
    intro c hc v hv x hx
    obtain ⟨a1, a2, a3, a4⟩ := h.copies c hc v hv
    obtain ⟨i, hi, hlt⟩ := globalIndex_lt d v a1 a2
    simp only [TableDesc.cellOf, hi, Option.map_some, Option.some.injEq] at hx
    subst hx
    have := h.rows32
    have := h.usable
    obtain ⟨k1, k2⟩ := mkKey_val i v.rotation.toNat (by omega) (by omega)
    unfold cellVal columnValue
    rw [k1, k2]
    rfl
  constructor
  · intro hinv c hc x y hx hy
    rw [← hval c hc c.1 (.inl rfl) x hx, ← hval c hc c.2 (.inr rfl) y hy]
    apply sameCycle_val σ _ hinv
    rw [hf.cycles]
    exact .rel _ _ ⟨c, hc, x, y, hx, hy, rfl, rfl⟩
  · intro hcopy k
    have hs : SameCycle σ k (σ k) := ⟨1, by simp⟩
    rw [hf.cycles] at hs
    have : ∀ u v, Relation.EqvGen (fun u v => ∃ c ∈ cs, ∃ x y, d.cellOf c.1 = some x ∧
        d.cellOf c.2 = some y ∧ u = mkKey x.1 x.2.toNat ∧ v = mkKey y.1 y.2.toNat) u v →
        cellVal L n column u = cellVal L n column v := by
      intro u v huv
      induction huv with
      | rel u v huv =>
        obtain ⟨c, hc, x, y, hx, hy, rfl, rfl⟩ := huv
        rw [hval c hc c.1 (.inl rfl) x hx, hval c hc c.2 (.inr rfl) y hy]
        exact hcopy c hc x y hx hy
      | refl => rfl
      | symm _ _ _ ih => exact ih.symm
      | trans _ _ _ _ _ ih1 ih2 => exact ih1.trans ih2
    exact (this _ _ hs).symm

/-- The columns at the global indices. -/
theorem cols_value (column : Nat → Option (List F)) (cols : List (List F))
    (hcols : gi.mapM column = some cols) (hb : ∀ c ∈ gi, c < 2 ^ 32) (i : Nat) (hi : i < gi.length)
    (j : Nat) (hj : j < 2 ^ 32) :
    rowValue L n (cols.getD i []) j = cellVal L n column (mkKey (gi.getD i 0) j) := by
  have hl := length_mapM _ _ _ hcols
  have hF := (List.forall₂_iff_get.1 (forall₂_of_mapM _ _ _ hcols)).2 i hi (by omega)
  have hg : gi.getD i 0 < 2 ^ 32 := by
    rw [List.getD_eq_getElem _ _ hi]; exact hb _ (List.getElem_mem hi)
  obtain ⟨k1, k2⟩ := mkKey_val (gi.getD i 0) j hg hj
  unfold cellVal columnValue
  rw [k1, k2, List.getD_eq_getElem _ _ hi]
  simp only [List.get_eq_getElem] at hF
  rw [hF, List.getD_eq_getElem _ _ (by omega)]
  simp [rowValue, FftLib.domain]

/-- The product of the factors of a row, as a product over its cells. -/
theorem row_factors (beta gamma : F) (ss cols : List (List F)) (hs : ss.length = gi.length)
    (hc : cols.length = gi.length) (j : Nat) (ident val : Nat → F)
    (hid : ∀ i < gi.length, rowValue L n (ss.getD i []) j = ident i)
    (hval : ∀ i < gi.length, rowValue L n (cols.getD i []) j = val i) :
    ((List.zipWith (permFactor beta gamma) ss cols).map (rowValue L n · j)).prod =
      ∏ i ∈ Finset.range gi.length, (ident i * beta + (val i + gamma)) := by
  rw [list_prod_range ([] : List F)]
  rw [List.length_zipWith, hs, hc, Nat.min_self]
  apply Finset.prod_congr rfl
  intro i hi
  rw [Finset.mem_range] at hi
  rw [List.getD_eq_getElem _ _ (by simp; omega), List.getElem_zipWith, rowValue,
    evalPoly_permFactor, ← hid i hi, ← hval i hi, List.getD_eq_getElem _ _ (by omega),
    List.getD_eq_getElem _ _ (by omega)]
  rfl

theorem PermFacts.bound32 (h : PermSetup L A n d cs order gi delta mqc pre)
    (hf : PermFacts L n d cs gi delta mqc pre σ) : ∀ c ∈ gi, c < 2 ^ 32 := by
  intro c hc
  have := hf.bound c hc
  have hw := h.width
  unfold TableDesc.width at hw
  omega

/-- The products over the usable rows of the two kinds of factors. -/
theorem PermSetup.products (h : PermSetup L A n d cs order gi delta mqc pre)
    (hf : PermFacts L n d cs gi delta mqc pre σ) (column : Nat → Option (List F))
    (cols : List (List F)) (hcols : gi.mapM column = some cols) (beta gamma : F) :
    (∏ j ∈ Finset.range d.usableRows,
        ((List.zipWith (permFactor beta gamma) pre.sId cols).map (rowValue L n · j)).prod =
      ∏ k ∈ permCells gi d.usableRows,
        (cellId L n gi delta k * beta + (cellVal L n column k + gamma))) ∧
    (∏ j ∈ Finset.range d.usableRows,
        ((List.zipWith (permFactor beta gamma) pre.sSigma cols).map (rowValue L n · j)).prod =
      ∏ k ∈ permCells gi d.usableRows,
        (cellId L n gi delta (σ k) * beta + (cellVal L n column k + gamma))) := by
  have hb := PermFacts.bound32 h hf
  have hr := h.rows
  have hu := h.usable
  have h32 := h.rows32
  have hl := length_mapM _ _ _ hcols
  constructor
  · rw [prod_permCells gi _ hf.nodup hb (by omega)]
    apply Finset.prod_congr rfl
    intro j hj
    rw [Finset.mem_range] at hj
    exact row_factors beta gamma _ _ hf.sIdLen hl j _ _ (fun i hi => hf.sId i hi j (by omega))
      (fun i hi => cols_value column cols hcols hb i hi j (by omega))
  · rw [prod_permCells gi _ hf.nodup hb (by omega)]
    apply Finset.prod_congr rfl
    intro j hj
    rw [Finset.mem_range] at hj
    exact row_factors beta gamma _ _ hf.sSigmaLen hl j _ _
      (fun i hi => hf.sSigma i hi j (by omega))
      (fun i hi => cols_value column cols hcols hb i hi j (by omega))

/-- The identifiers of the cells are different. -/
theorem PermSetup.ident_injOn (h : PermSetup L A n d cs order gi delta mqc pre)
    (hf : PermFacts L n d cs gi delta mqc pre σ)
    (hdelta : ∀ m, 0 < m → m < gi.length → delta ^ (2 ^ n * m) ≠ 1) (hd0 : delta ≠ 0) :
    Set.InjOn (cellId L n gi delta) (permCells gi d.usableRows : Set CellKey) := by
  have hb := PermFacts.bound32 h hf
  have hr := h.rows
  have hu := h.usable
  have h32 := h.rows32
  have hval : ∀ i < gi.length, ∀ j < d.usableRows,
      cellId L n gi delta (mkKey (gi.getD i 0) j) = delta ^ i * L.root n ^ j := by
    intro i hi j hj
    have hg : gi.getD i 0 < 2 ^ 32 := by
      rw [List.getD_eq_getElem _ _ hi]; exact hb _ (List.getElem_mem hi)
    obtain ⟨k1, k2⟩ := mkKey_val (gi.getD i 0) j hg (by omega)
    rw [cellId, k1, k2, List.getD_eq_getElem _ _ hi, List.Nodup.idxOf_getElem hf.nodup i hi]
  have hcard := root_pow_card h.lib n h.small
  intro k hk l hl he
  simp only [permCells, Finset.coe_image, Finset.coe_product, Finset.coe_range, Set.mem_image,
    Set.mem_prod, Set.mem_Iio, Prod.exists] at hk hl
  obtain ⟨i, j, ⟨hi, hj⟩, rfl⟩ := hk
  obtain ⟨i', j', ⟨hi', hj'⟩, rfl⟩ := hl
  rw [hval i hi j hj, hval i' hi' j' hj'] at he
  have hpow : ∀ a b : Nat, (delta ^ a * L.root n ^ b) ^ 2 ^ n = delta ^ (2 ^ n * a) := by
    intro a b
    rw [mul_pow, ← pow_mul, ← pow_mul, Nat.mul_comm b, pow_mul (L.root n), hcard, one_pow, mul_one,
      Nat.mul_comm]
  have h2 : delta ^ (2 ^ n * i) = delta ^ (2 ^ n * i') := by rw [← hpow i j, he, hpow]
  have key : ∀ a b : Nat, a < b → b < gi.length → delta ^ (2 ^ n * a) ≠ delta ^ (2 ^ n * b) := by
    intro a b hab hb' hc
    apply hdelta (b - a) (by omega) (by omega)
    have : 2 ^ n * b = 2 ^ n * a + 2 ^ n * (b - a) := by rw [← Nat.mul_add]; congr 1; omega
    rw [this, pow_add] at hc
    exact (mul_eq_left₀ (pow_ne_zero _ hd0)).1 hc.symm
  have hii : i = i' := by
    rcases Nat.lt_trichotomy i i' with hlt | heq | hgt
    · exact absurd h2 (key i i' hlt hi')
    · exact heq
    · exact absurd h2.symm (key i' i hgt hi)
  subst hii
  have h3 := mul_left_cancel₀ (pow_ne_zero i hd0) he
  have hjj := elem_injective h.lib n h.small j j' (by omega) (by omega) h3
  subst hjj
  rfl

end

end Crypto3Zk
