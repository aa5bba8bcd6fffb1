import Verif.Model.FRI
import Mathlib.Tactic.Ring
import Mathlib.Tactic.Linarith
import Mathlib.Algebra.Order.Ring.Nat
import Mathlib.Data.Nat.ModEq
import Mathlib.Data.List.Range
import Mathlib.Data.List.Nodup

/-!
# Lemmas about the index arithmetic of FRI
-/

namespace Crypto3Zk

/-- The offset of entry `i` of the index list: the bits of `i`, lowest first, weigh
`N / 4`, `N / 8`, ... -/
def cosetOff (N i : Nat) : Nat :=
  if h : i = 0 then 0 else (i % 2) * (N / 4) + cosetOff (N / 2) (i / 2)
termination_by i
decreasing_by omega

theorem cosetOff_zero (N : Nat) : cosetOff N 0 = 0 := by
  rw [cosetOff]; simp

theorem cosetOff_eq (N i : Nat) :
    cosetOff N i = (i % 2) * (N / 4) + cosetOff (N / 2) (i / 2) := by
  by_cases h : i = 0
  · subst h; simp [cosetOff_zero]
  · rw [cosetOff]; simp [h]

theorem cosetOff_double (N i : Nat) : cosetOff N (2 * i) = cosetOff (N / 2) i := by
  rw [cosetOff_eq]; simp

theorem cosetOff_double_add_one (N i : Nat) :
    cosetOff N (2 * i + 1) = N / 4 + cosetOff (N / 2) i := by
  rw [cosetOff_eq]
  have h1 : (2 * i + 1) % 2 = 1 := by omega
  have h2 : (2 * i + 1) / 2 = i := by omega
  rw [h1, h2, one_mul]

theorem cosetOff_top (k : Nat) : ∀ (N j : Nat), j < 2 ^ k →
    cosetOff N (2 ^ k + j) = N / 4 / 2 ^ k + cosetOff N j := by
  induction k with
  | zero =>
    intro N j hj
    have : j = 0 := by simpa using hj
    subst this
    rw [cosetOff_eq]
    simp [cosetOff_zero]
  | succ k ih =>
    intro N j hj
    rw [cosetOff_eq, cosetOff_eq N j]
    have h1 : (2 ^ (k + 1) + j) % 2 = j % 2 := by rw [pow_succ]; omega
    have h2 : (2 ^ (k + 1) + j) / 2 = 2 ^ k + j / 2 := by rw [pow_succ]; omega
    have hj' : j / 2 < 2 ^ k := by rw [pow_succ] at hj; omega
    rw [h1, h2, ih _ _ hj']
    have h3 : N / 2 / 4 / 2 ^ k = N / 4 / 2 ^ (k + 1) := by
      rw [Nat.div_div_eq_div_mul, Nat.div_div_eq_div_mul, Nat.div_div_eq_div_mul, pow_succ]
      congr 1
      ring
    rw [h3]
    ring

/-- entry `i` of the index list -/
def cosetIdx (N x i : Nat) : Nat := (x + cosetOff N i) % N

theorem cosetIdx_top (N x k j : Nat) (hj : j < 2 ^ k) :
    cosetIdx N x (2 ^ k + j) = (N / 4 / 2 ^ k + cosetIdx N x j) % N := by
  unfold cosetIdx
  rw [cosetOff_top k N j hj, Nat.add_mod_mod]
  congr 1
  ring

theorem range_two_pow_succ (k : Nat) :
    List.range (2 ^ (k + 1)) = List.range (2 ^ k) ++ (List.range (2 ^ k)).map (2 ^ k + ·) := by
  rw [show 2 ^ (k + 1) = 2 ^ k + 2 ^ k by rw [pow_succ]; ring, List.range_add]

theorem orderLoop_eq (N m x : Nat) : ∀ (d k fuel : Nat), k + d = m → d ≤ fuel →
    orderLoop N (2 ^ m) fuel (N / 4 / 2 ^ k) (2 ^ k) ((List.range (2 ^ k)).map (cosetIdx N x)) =
      (List.range (2 ^ m)).map (cosetIdx N x) := by
  intro d
  induction d with
  | zero =>
    intro k fuel hk _
    have : k = m := by omega
    subst this
    cases fuel <;> simp [orderLoop]
  | succ d ih =>
    intro k fuel hk hf
    obtain ⟨fuel, rfl⟩ : ∃ f, fuel = f + 1 := ⟨fuel - 1, by omega⟩
    rw [orderLoop]
    have hlt : 2 ^ k < 2 ^ m := Nat.pow_lt_pow_right (by norm_num) (by omega)
    rw [if_pos (by simpa using hlt)]
    have h := ih (k + 1) fuel (by omega) (by omega)
    rw [← h]
    congr 1
    · rw [pow_succ, Nat.div_div_eq_div_mul]
    · rw [range_two_pow_succ, List.map_append, List.map_map]
      congr 1
      rw [List.take_of_length_le (by simp), List.map_map]
      apply List.map_congr_left
      intro j hj
      simp only [Function.comp]
      rw [cosetIdx_top N x k j (by simpa using hj)]

theorem indexLoop_eq (N m x : Nat) : ∀ (d k fuel : Nat), k + d = m → d ≤ fuel →
    indexLoop N (2 ^ m) fuel (N / 4 / 2 ^ k) (2 ^ k)
        ((List.range (2 ^ k)).map fun i => (cosetIdx N x i, pairedIndex (cosetIdx N x i) N)) =
      (List.range (2 ^ m)).map fun i => (cosetIdx N x i, pairedIndex (cosetIdx N x i) N) := by
  intro d
  induction d with
  | zero =>
    intro k fuel hk _
    have : k = m := by omega
    subst this
    cases fuel <;> simp [indexLoop]
  | succ d ih =>
    intro k fuel hk hf
    obtain ⟨fuel, rfl⟩ : ∃ f, fuel = f + 1 := ⟨fuel - 1, by omega⟩
    rw [indexLoop]
    have hlt : 2 ^ k < 2 ^ m := Nat.pow_lt_pow_right (by norm_num) (by omega)
    rw [if_pos (by simpa using hlt)]
    have h := ih (k + 1) fuel (by omega) (by omega)
    rw [← h]
    congr 1
    · rw [pow_succ, Nat.div_div_eq_div_mul]
    · rw [range_two_pow_succ, List.map_append, List.map_map]
      congr 1
      rw [List.take_of_length_le (by simp), List.map_map]
      apply List.map_congr_left
      intro j hj
      simp only [Function.comp]
      rw [cosetIdx_top N x k j (by simpa using hj)]

theorem two_pow_succ_half (s : Nat) : 2 ^ (s + 1) / 2 = 2 ^ s := by
  rw [pow_succ]; omega

theorem cosetIdx_zero (N x : Nat) (hx : x < N) : cosetIdx N x 0 = x := by
  simp [cosetIdx, cosetOff_zero, Nat.mod_eq_of_lt hx]

/-- The index list in closed form. -/
theorem cosetIndices_eq (N x s : Nat) (hx : x < N) :
    cosetIndices x N (s + 1) =
      some ((List.range (2 ^ s)).map fun i => (cosetIdx N x i, pairedIndex (cosetIdx N x i) N)) := by
  have hpos : 0 < 2 ^ s := Nat.pow_pos (by norm_num)
  unfold cosetIndices
  simp only [two_pow_succ_half, if_neg hpos.ne']
  have h := indexLoop_eq N s x s 0 (2 ^ s) (by omega) (Nat.lt_two_pow_self).le
  simp only [pow_zero, Nat.div_one, List.range_one, List.map_cons, List.map_nil,
    cosetIdx_zero N x hx] at h
  rw [h]

theorem order_eq (N x s : Nat) (hx : x < N) :
    orderLoop N (2 ^ s) (2 ^ s) (N / 4) 1 [x] = (List.range (2 ^ s)).map (cosetIdx N x) := by
  have h := orderLoop_eq N s x s 0 (2 ^ s) (by omega) (Nat.lt_two_pow_self).le
  simp only [pow_zero, Nat.div_one, List.range_one, List.map_cons, List.map_nil,
    cosetIdx_zero N x hx] at h
  rw [h]

/-- The folded index is the remainder by the folded size. -/
theorem foldedIndex_eq (s : Nat) : ∀ (n x : Nat), s ≤ n → x < 2 ^ n →
    foldedIndex x (2 ^ n) s = some (x % 2 ^ (n - s)) := by
  induction s with
  | zero => intro n x _ hx; simp [foldedIndex, Nat.mod_eq_of_lt hx]
  | succ s ih =>
    intro n x h hx
    obtain ⟨n, rfl⟩ : ∃ m, n = m + 1 := ⟨n - 1, by omega⟩
    have hpos : 0 < 2 ^ n := Nat.pow_pos (by norm_num)
    rw [foldedIndex, two_pow_succ_half, if_neg hpos.ne',
      ih n _ (by omega) (Nat.mod_lt _ hpos)]
    rw [show n + 1 - (s + 1) = n - s by omega,
      Nat.mod_mod_of_dvd _ (Nat.pow_dvd_pow 2 (by omega))]

theorem two_pow_quarter (n : Nat) : 2 ^ (n + 2) / 4 = 2 ^ n := by
  rw [pow_succ, pow_succ]; omega

theorem mod_of_lt_two_mul (a N : Nat) (h : a < 2 * N) :
    a % N = if a < N then a else a - N := by
  split_ifs with h1
  · exact Nat.mod_eq_of_lt h1
  · rw [Nat.mod_eq_sub_mod (by omega), Nat.mod_eq_of_lt (by omega)]

theorem cosetOff_lt (s : Nat) : ∀ (n i : Nat), s ≤ n → i < 2 ^ s →
    cosetOff (2 ^ (n + 1)) i < 2 ^ n := by
  induction s with
  | zero =>
    intro n i _ hi
    have : i = 0 := by simpa using hi
    subst this
    rw [cosetOff_zero]
    exact Nat.pow_pos (by norm_num)
  | succ s ih =>
    intro n i hs hi
    obtain ⟨n, rfl⟩ : ∃ m, n = m + 1 := ⟨n - 1, by omega⟩
    rw [cosetOff_eq, two_pow_quarter, two_pow_succ_half]
    have h1 := ih n (i / 2) (by omega) (by rw [pow_succ] at hi; omega)
    have h2 : i % 2 * 2 ^ n ≤ 1 * 2 ^ n := Nat.mul_le_mul_right _ (by omega)
    have hp : 2 ^ (n + 1) = 2 * 2 ^ n := by rw [pow_succ, mul_comm]
    omega

theorem cosetOff_dvd (s : Nat) : ∀ (n i : Nat), s ≤ n → i < 2 ^ s →
    2 ^ (n - s) ∣ cosetOff (2 ^ (n + 1)) i := by
  induction s with
  | zero =>
    intro n i _ hi
    have : i = 0 := by simpa using hi
    subst this
    rw [cosetOff_zero]
    exact dvd_zero _
  | succ s ih =>
    intro n i hs hi
    obtain ⟨n, rfl⟩ : ∃ m, n = m + 1 := ⟨n - 1, by omega⟩
    rw [cosetOff_eq, two_pow_quarter, two_pow_succ_half]
    have h1 := ih n (i / 2) (by omega) (by rw [pow_succ] at hi; omega)
    rw [show n + 1 - (s + 1) = n - s by omega]
    exact Nat.dvd_add (Dvd.dvd.mul_left (Nat.pow_dvd_pow 2 (by omega)) _) h1

theorem cosetOff_injective (s : Nat) : ∀ (n i j : Nat), s ≤ n → i < 2 ^ s → j < 2 ^ s →
    cosetOff (2 ^ (n + 1)) i = cosetOff (2 ^ (n + 1)) j → i = j := by
  induction s with
  | zero =>
    intro n i j _ hi hj _
    have : i = 0 := by simpa using hi
    have : j = 0 := by simpa using hj
    omega
  | succ s ih =>
    intro n i j hs hi hj h
    obtain ⟨n, rfl⟩ : ∃ m, n = m + 1 := ⟨n - 1, by omega⟩
    have hi2 : i / 2 < 2 ^ s := by rw [pow_succ] at hi; omega
    have hj2 : j / 2 < 2 ^ s := by rw [pow_succ] at hj; omega
    rw [cosetOff_eq, cosetOff_eq _ j, two_pow_quarter, two_pow_succ_half] at h
    have h1 := cosetOff_lt s n (i / 2) (by omega) hi2
    have h2 := cosetOff_lt s n (j / 2) (by omega) hj2
    have e := ih n (i / 2) (j / 2) (by omega) hi2 hj2
    rcases Nat.mod_two_eq_zero_or_one i with a | a <;> rcases Nat.mod_two_eq_zero_or_one j with b | b <;>
      rw [a, b] at h <;> simp only [zero_mul, one_mul, zero_add] at h
    · have := e (by omega); omega
    · omega
    · omega
    · have := e (by omega); omega

theorem cosetOff_surjective (s : Nat) : ∀ (n m : Nat), s ≤ n → m < 2 ^ n → 2 ^ (n - s) ∣ m →
    ∃ i < 2 ^ s, cosetOff (2 ^ (n + 1)) i = m := by
  induction s with
  | zero =>
    intro n m _ hm hd
    refine ⟨0, by simp, ?_⟩
    rw [cosetOff_zero]
    exact (Nat.eq_zero_of_dvd_of_lt hd (by simpa using hm)).symm
  | succ s ih =>
    intro n m hs hm hd
    obtain ⟨n, rfl⟩ : ∃ m, n = m + 1 := ⟨n - 1, by omega⟩
    rw [show n + 1 - (s + 1) = n - s by omega] at hd
    have hp : 2 ^ (n + 1) = 2 * 2 ^ n := by rw [pow_succ, mul_comm]
    by_cases hb : m < 2 ^ n
    · obtain ⟨i, hi, h⟩ := ih n m (by omega) hb hd
      refine ⟨2 * i, by rw [pow_succ]; omega, ?_⟩
      rw [cosetOff_double, two_pow_succ_half]
      exact h
    · have hd' : 2 ^ (n - s) ∣ m - 2 ^ n := Nat.dvd_sub hd (Nat.pow_dvd_pow 2 (by omega))
      obtain ⟨i, hi, h⟩ := ih n (m - 2 ^ n) (by omega) (by omega) hd'
      refine ⟨2 * i + 1, by rw [pow_succ]; omega, ?_⟩
      rw [cosetOff_double_add_one, two_pow_succ_half, two_pow_quarter, h]
      omega

/-! ## the pairs of a coset -/

theorem pairedIndex_pow (n x : Nat) (hx : x < 2 ^ (n + 1)) :
    pairedIndex x (2 ^ (n + 1)) = if x < 2 ^ n then x + 2 ^ n else x - 2 ^ n := by
  have hp : 2 ^ (n + 1) = 2 * 2 ^ n := by rw [pow_succ, mul_comm]
  unfold pairedIndex
  rw [two_pow_succ_half, mod_of_lt_two_mul _ _ (by omega)]
  split_ifs <;> omega

theorem pairedIndex_lt (n x : Nat) : pairedIndex x (2 ^ n) < 2 ^ n :=
  Nat.mod_lt _ (Nat.pow_pos (by norm_num))

theorem cosetIdx_lt (n x i : Nat) : cosetIdx (2 ^ n) x i < 2 ^ n :=
  Nat.mod_lt _ (Nat.pow_pos (by norm_num))

theorem min_pairedIndex (n x : Nat) (hx : x < 2 ^ (n + 1)) :
    min x (pairedIndex x (2 ^ (n + 1))) = x % 2 ^ n ∧
      max x (pairedIndex x (2 ^ (n + 1))) = x % 2 ^ n + 2 ^ n := by
  have hp : 2 ^ (n + 1) = 2 * 2 ^ n := by rw [pow_succ, mul_comm]
  rw [pairedIndex_pow n x hx, mod_of_lt_two_mul x (2 ^ n) (by omega)]
  split_ifs <;> constructor <;> omega

theorem pairedIndex_invol (n x : Nat) (hx : x < 2 ^ (n + 1)) :
    pairedIndex (pairedIndex x (2 ^ (n + 1))) (2 ^ (n + 1)) = x := by
  rw [pairedIndex_pow n _ (pairedIndex_lt _ _), pairedIndex_pow n x hx]
  have hp : 2 ^ (n + 1) = 2 * 2 ^ n := by rw [pow_succ, mul_comm]
  split_ifs <;> omega

/-- The entries of the index list lie in the class of `x` modulo the folded size. -/
theorem cosetIdx_mod (n s x i : Nat) (hs : s ≤ n) (hi : i < 2 ^ s) :
    cosetIdx (2 ^ (n + 1)) x i % 2 ^ (n - s) = x % 2 ^ (n - s) := by
  unfold cosetIdx
  rw [Nat.mod_mod_of_dvd _ (Nat.pow_dvd_pow 2 (by omega)), Nat.add_mod,
    Nat.mod_eq_zero_of_dvd (cosetOff_dvd s n i hs hi), add_zero, Nat.mod_mod]

theorem pairedIndex_mod (n k x : Nat) (hk : k ≤ n) :
    pairedIndex x (2 ^ (n + 1)) % 2 ^ k = x % 2 ^ k := by
  unfold pairedIndex
  rw [Nat.mod_mod_of_dvd _ (Nat.pow_dvd_pow 2 (by omega)), two_pow_succ_half, Nat.add_mod,
    Nat.mod_eq_zero_of_dvd (Nat.pow_dvd_pow 2 hk), add_zero, Nat.mod_mod]

/-- Every index in the class of `x` is in one of the pairs. -/
theorem cosetIdx_cover (n s x j : Nat) (hs : s ≤ n) (hx : x < 2 ^ (n + 1)) (hj : j < 2 ^ (n + 1))
    (h : j % 2 ^ (n - s) = x % 2 ^ (n - s)) :
    ∃ i < 2 ^ s, cosetIdx (2 ^ (n + 1)) x i = j ∨
      pairedIndex (cosetIdx (2 ^ (n + 1)) x i) (2 ^ (n + 1)) = j := by
  have hp : 2 ^ (n + 1) = 2 * 2 ^ n := by rw [pow_succ, mul_comm]
  have hd1 : 2 ^ (n - s) ∣ 2 ^ n := Nat.pow_dvd_pow 2 (by omega)
  -- the offset of `j` from `x`, reduced below `2 ^ n`
  have key : ∀ m, m < 2 ^ n → 2 ^ (n - s) ∣ m →
      ((x + m) % (2 * 2 ^ n) = j ∨ ((x + m) % (2 * 2 ^ n) + 2 ^ n) % (2 * 2 ^ n) = j) →
      ∃ i < 2 ^ s, cosetIdx (2 ^ (n + 1)) x i = j ∨
        pairedIndex (cosetIdx (2 ^ (n + 1)) x i) (2 ^ (n + 1)) = j := by
    intro m hm hd hor
    obtain ⟨i, hi, e⟩ := cosetOff_surjective s n m hs hm hd
    refine ⟨i, hi, ?_⟩
    unfold cosetIdx pairedIndex
    rw [two_pow_succ_half, e, hp]
    exact hor
  have hsub : ∀ a b, b ≤ a → a % 2 ^ (n - s) = b % 2 ^ (n - s) → 2 ^ (n - s) ∣ a - b :=
    fun a b hab e => (Nat.modEq_iff_dvd' hab).mp e.symm
  by_cases h1 : x ≤ j
  · have hd := hsub j x h1 h
    by_cases h2 : j - x < 2 ^ n
    · refine key (j - x) h2 hd (Or.inl ?_)
      rw [mod_of_lt_two_mul _ _ (by omega)]
      split_ifs <;> omega
    · refine key (j - x - 2 ^ n) (by omega) (Nat.dvd_sub hd hd1) (Or.inr ?_)
      rw [mod_of_lt_two_mul (x + (j - x - 2 ^ n)) _ (by omega), if_pos (by omega),
        mod_of_lt_two_mul _ _ (by omega)]
      split_ifs <;> omega
  · have hd := hsub x j (by omega) h.symm
    by_cases h2 : x - j ≤ 2 ^ n
    · refine key (2 ^ n - (x - j)) (by omega) (Nat.dvd_sub hd1 hd) (Or.inr ?_)
      rw [mod_of_lt_two_mul (x + (2 ^ n - (x - j))) _ (by omega)]
      split_ifs with h3 <;> rw [mod_of_lt_two_mul _ _ (by omega)] <;> split_ifs <;> omega
    · refine key (2 * 2 ^ n - (x - j)) (by omega) (Nat.dvd_sub (Dvd.dvd.mul_left hd1 2) hd)
        (Or.inl ?_)
      rw [mod_of_lt_two_mul _ _ (by omega)]
      split_ifs <;> omega

/-- Different entries of the index list are in different pairs. -/
theorem cosetIdx_disjoint (n s x i j : Nat) (hs : s ≤ n) (hi : i < 2 ^ s) (hj : j < 2 ^ s)
    (hx : x < 2 ^ (n + 1))
    (h : cosetIdx (2 ^ (n + 1)) x i % 2 ^ n = cosetIdx (2 ^ (n + 1)) x j % 2 ^ n) : i = j := by
  have hi' := cosetOff_lt s n i hs hi
  have hj' := cosetOff_lt s n j hs hj
  unfold cosetIdx at h
  rw [Nat.mod_mod_of_dvd _ (Nat.pow_dvd_pow 2 (by omega)),
    Nat.mod_mod_of_dvd _ (Nat.pow_dvd_pow 2 (by omega))] at h
  have h2 : cosetOff (2 ^ (n + 1)) i ≡ cosetOff (2 ^ (n + 1)) j [MOD 2 ^ n] :=
    Nat.ModEq.add_left_cancel' x h
  have h3 := Nat.ModEq.eq_of_lt_of_lt h2 hi' hj'
  exact cosetOff_injective s n i j hs hi hj h3

/-! ## the reordering -/

/-- A leaf entry: for the folded index nothing wraps around. -/
theorem cosetIdx_folded (n s x0 i : Nat) (hs : s ≤ n) (hx : x0 < 2 ^ (n - s)) (hi : i < 2 ^ s) :
    cosetIdx (2 ^ (n + 1)) x0 i < 2 ^ n := by
  have h1 := cosetOff_lt s n i hs hi
  obtain ⟨q, hq⟩ := cosetOff_dvd s n i hs hi
  have hp : 2 ^ (n + 1) = 2 * 2 ^ n := by rw [pow_succ, mul_comm]
  have hn : 2 ^ n = 2 ^ (n - s) * 2 ^ s := by rw [← pow_add]; congr 1; omega
  have hlt : x0 + cosetOff (2 ^ (n + 1)) i < 2 ^ n := by
    rw [hq] at h1 ⊢
    have hq' : q < 2 ^ s := by
      rw [hn] at h1
      exact Nat.lt_of_mul_lt_mul_left h1
    calc x0 + 2 ^ (n - s) * q < 2 ^ (n - s) + 2 ^ (n - s) * q := by omega
      _ = 2 ^ (n - s) * (q + 1) := by ring
      _ ≤ 2 ^ (n - s) * 2 ^ s := Nat.mul_le_mul_left _ hq'
      _ = 2 ^ n := hn.symm
  unfold cosetIdx
  rw [Nat.mod_eq_of_lt (by omega)]
  exact hlt

/-- A `mapM` whose steps all succeed succeeds. -/
theorem mapM_exists {α β : Type} (R : α → β → Prop) (f : α → Option β) :
    ∀ l : List α, (∀ a ∈ l, ∃ b, f a = some b ∧ R a b) →
      ∃ bs, l.mapM f = some bs ∧ List.Forall₂ R l bs
  | [], _ => ⟨[], by simp, List.Forall₂.nil⟩
  | a :: l, h => by
    obtain ⟨b, hb, hR⟩ := h a (by simp)
    obtain ⟨bs, hbs, hF⟩ := mapM_exists R f l fun a ha => h a (by simp [ha])
    exact ⟨b :: bs, by simp [List.mapM_cons, hb, hbs], List.Forall₂.cons hR hF⟩

/-- The reordering finds every leaf entry, and points at the pair that holds it. -/
theorem correctOrder_spec (n s x : Nat) (hs : s ≤ n) (hx : x < 2 ^ (n + 1)) :
    ∃ order, correctOrder x (2 ^ (n + 1)) (s + 1)
        ((List.range (2 ^ s)).map fun i => (cosetIdx (2 ^ (n + 1)) x i,
          pairedIndex (cosetIdx (2 ^ (n + 1)) x i) (2 ^ (n + 1)))) = some order ∧
      order.length = 2 ^ s ∧
      ∀ i (h : i < order.length), order[i].1 < 2 ^ s ∧
        cosetIdx (2 ^ (n + 1)) x order[i].1 % 2 ^ n =
          cosetIdx (2 ^ (n + 1)) (x % 2 ^ (n - s)) i ∧
        order[i].2 = if cosetIdx (2 ^ (n + 1)) x order[i].1 < 2 ^ n then 0 else 1 := by
  have hpos : 0 < 2 ^ s := Nat.pow_pos (by norm_num)
  have hp : 2 ^ (n + 1) = 2 * 2 ^ n := by rw [pow_succ, mul_comm]
  set N := 2 ^ (n + 1) with hN
  set x0 := x % 2 ^ (n - s) with hx0
  have hx0' : x0 < 2 ^ (n - s) := Nat.mod_lt _ (Nat.pow_pos (by norm_num))
  have hx0N : x0 < N := lt_of_le_of_lt (Nat.mod_le _ _) hx
  unfold correctOrder
  simp only [two_pow_succ_half, List.length_map, List.length_range, ne_eq, not_true_eq_false,
    hpos.ne', or_self, if_false]
  rw [hN, foldedIndex_eq (s + 1) (n + 1) x (by omega) hx, show n + 1 - (s + 1) = n - s by omega,
    ← hx0, ← hN]
  simp only [Option.bind_eq_bind, Option.bind_some]
  rw [order_eq N x0 s hx0N]
  have hstep : ∀ c ∈ (List.range (2 ^ s)).map (cosetIdx N x0), ∃ o : Nat × Nat,
      (((List.range (2 ^ s)).map fun i => (cosetIdx N x i, pairedIndex (cosetIdx N x i) N)).findIdx?
        (fun v => decide ((v.1 = c ∧ v.2 = pairedIndex c N) ∨
          (v.2 = c ∧ v.1 = pairedIndex c N)))).bind (fun i =>
        (((List.range (2 ^ s)).map fun i =>
          (cosetIdx N x i, pairedIndex (cosetIdx N x i) N))[i]?).bind fun v =>
            some (i, if v.1 = c ∧ v.2 = pairedIndex c N then 0 else 1)) = some o ∧
      (o.1 < 2 ^ s ∧ cosetIdx N x o.1 % 2 ^ n = c ∧
        o.2 = if cosetIdx N x o.1 < 2 ^ n then 0 else 1) := by
    intro c hc
    obtain ⟨i, hi, rfl⟩ := List.mem_map.mp hc
    rw [List.mem_range] at hi
    set c := cosetIdx N x0 i with hcdef
    have hcn : c < 2 ^ n := cosetIdx_folded n s x0 i hs hx0' hi
    have hcN : c < N := by omega
    have hcm : c % 2 ^ (n - s) = x % 2 ^ (n - s) := by
      rw [hcdef, hN, cosetIdx_mod n s x0 i hs hi, hx0, Nat.mod_mod]
    obtain ⟨j, hj, hor⟩ := cosetIdx_cover n s x c hs hx hcN hcm
    rw [← hN] at hor
    have hpair : pairedIndex c N = c + 2 ^ n := by rw [hN, pairedIndex_pow n c hcN, if_pos hcn]
    cases hf : ((List.range (2 ^ s)).map fun i =>
        (cosetIdx N x i, pairedIndex (cosetIdx N x i) N)).findIdx?
        (fun v => decide ((v.1 = c ∧ v.2 = pairedIndex c N) ∨
          (v.2 = c ∧ v.1 = pairedIndex c N))) with
    | none =>
      exfalso
      rw [List.findIdx?_eq_none_iff] at hf
      have := hf _ (List.mem_map.mpr ⟨j, List.mem_range.mpr hj, rfl⟩)
      simp only [decide_eq_false_iff_not] at this
      apply this
      rcases hor with h | h
      · left; exact ⟨h, by rw [h]⟩
      · right
        refine ⟨h, ?_⟩
        rw [← h, hN, pairedIndex_invol n _ (cosetIdx_lt _ _ _)]
    | some k =>
      rw [List.findIdx?_eq_some_iff_getElem] at hf
      obtain ⟨hk, hpk, _⟩ := hf
      have hk' : k < 2 ^ s := by simpa using hk
      refine ⟨(k, if cosetIdx N x k = c ∧ pairedIndex (cosetIdx N x k) N = pairedIndex c N
        then 0 else 1), ?_, hk', ?_, ?_⟩
      · simp [hk']
      all_goals
        simp only [List.getElem_map, List.getElem_range, decide_eq_true_eq] at hpk
        have hlt : cosetIdx N x k < N := cosetIdx_lt (n + 1) x k
        have hpk2 := pairedIndex_pow n _ (hN ▸ hlt)
        rw [← hN] at hpk2
        simp only [hpair, hpk2] at hpk ⊢
      · rw [mod_of_lt_two_mul _ _ (by omega)]
        split_ifs at hpk ⊢ <;> omega
      · split_ifs at hpk ⊢ <;> omega
  obtain ⟨order, ho, hF⟩ := mapM_exists _ _ _ hstep
  refine ⟨order, ho, ?_, ?_⟩
  · rw [← hF.length_eq]; simp
  · intro i hi
    have hi2 : i < ((List.range (2 ^ s)).map (cosetIdx N x0)).length := by rw [hF.length_eq]; exact hi
    have := (List.forall₂_iff_get.mp hF).2 i hi2 hi
    simpa using this

end Crypto3Zk
