import Verif.Model.PlonkTable
import Mathlib.Tactic.Ring
import Mathlib.Tactic.NormNum
import Mathlib.Data.List.GetD
import Mathlib.Data.List.Induction
import Mathlib.Algebra.Order.Ring.Int

namespace Crypto3Zk

set_option linter.unusedSectionVars false

theorem emod_toNat_mod (x : Int) (r : Nat) (h : 0 < r) (h0 : 0 ≤ x) (h1 : x < 2 ^ 64) :
    (x % (2 ^ 64 : Int)).toNat % r = (x % r).toNat := by
  obtain ⟨n, rfl⟩ := Int.eq_ofNat_of_zero_le h0
  rw [Int.emod_eq_of_lt h0 h1]
  simp only [Int.ofNat_eq_natCast, Int.toNat_natCast]
  rw [← Int.natCast_mod, Int.toNat_natCast]

theorem rotatedRow_eq (rows row : Nat) (rot : Int) (h0 : 0 < rows)
    (hlo : 0 ≤ (rows : Int) + row + rot) (hhi : (rows : Int) + row + rot < 2 ^ 64) :
    rotatedRow rows row rot = some (((row : Int) + rot) % rows).toNat := by
  unfold rotatedRow
  rw [if_neg (by omega), emod_toNat_mod _ _ h0 hlo hhi]
  congr 2
  rw [show (rows : Int) + row + rot = (row + rot) + rows by ring, Int.add_emod_right]

theorem rotatedRow_pow2 (k row : Nat) (rot : Int) (hk : k ≤ 64) :
    rotatedRow (2 ^ k) row rot = some (((row : Int) + rot) % (2 ^ k : Nat)).toNat := by
  unfold rotatedRow
  have hp : 0 < 2 ^ k := Nat.two_pow_pos k
  rw [if_neg (by omega)]
  congr 1
  set x : Int := ((2 ^ k : Nat) : Int) + row + rot with hx
  have hnn : 0 ≤ x % (2 ^ 64 : Int) := Int.emod_nonneg _ (by norm_num)
  have h1 : ((x % (2 ^ 64 : Int)).toNat % 2 ^ k : Nat) = ((x % (2 ^ 64 : Int)) % ((2 ^ k : Nat) : Int)).toNat := by
    obtain ⟨n, hn⟩ := Int.eq_ofNat_of_zero_le hnn
    rw [hn]
    simp only [Int.toNat_natCast]
    rw [← Int.natCast_mod, Int.toNat_natCast]
  rw [h1]
  congr 1
  rw [Int.emod_emod_of_dvd x (by
    have : ((2 ^ k : Nat) : Int) ∣ ((2 ^ 64 : Nat) : Int) := Int.natCast_dvd_natCast.2 (pow_dvd_pow 2 hk)
    simpa using this)]
  rw [hx, show ((2 ^ k : Nat) : Int) + row + rot = (row + rot) + ((2 ^ k : Nat) : Int) by ring,
    Int.add_emod_right]

theorem foldlM_eq_foldl {V R : Type} [CommRing R] (get : V → Option R) (g : V → R) (l : List V)
    (h : ∀ v ∈ l, get v = some (g v)) (c : R) :
    l.foldlM (fun res v => do return res * (← get v)) c = some (l.foldl (fun res v => res * g v) c) := by
  induction l generalizing c with
  | nil => rfl
  | cons v l ih =>
    simp only [List.foldlM_cons, List.foldl_cons, h v (by simp), Option.bind_eq_bind,
      Option.bind_some, Option.pure_def]
    exact ih (fun w hw => h w (by simp [hw])) _

theorem evalM_eq_eval {V R : Type} [CommRing R] (get : V → Option R) (g : V → R)
    (e : Expr V R) (h : ∀ v ∈ e.visitVars, get v = some (g v)) :
    e.evalM get = some (e.eval g) := by
  induction e with
  | term t => exact foldlM_eq_foldl get g t.vars h t.coeff
  | pow e p ih => simp [Expr.evalM, Expr.eval, ih (fun v hv => h v (by simpa [Expr.visitVars] using hv))]
  | bin o l r ihl ihr =>
    have hl := ihl (fun v hv => h v (by simp [Expr.visitVars, hv]))
    have hr := ihr (fun v hv => h v (by simp [Expr.visitVars, hv]))
    cases o <;> simp [Expr.evalM, Expr.eval, hl, hr]

/-! ### rows and padding -/

theorem maxSize_le {F : Type} (cols : List (List F)) (a b : Nat) :
    PlonkTable.maxSize a cols ≤ b ↔ a ≤ b ∧ ∀ c ∈ cols, c.length ≤ b := by
  unfold PlonkTable.maxSize
  induction cols generalizing a with
  | nil => simp
  | cons c cs ih => simp [ih, and_assoc]

theorem maxSize_mono {F : Type} (cols : List (List F)) (a : Nat) : a ≤ PlonkTable.maxSize a cols :=
  ((maxSize_le cols a _).1 le_rfl).1

theorem rowsAmount_le {F : Type} (t : PlonkTable F) (b : Nat) :
    t.rowsAmount ≤ b ↔ (∀ c ∈ t.witnesses, c.length ≤ b) ∧ (∀ c ∈ t.publicInputs, c.length ≤ b) ∧
      (∀ c ∈ t.constants, c.length ≤ b) ∧ (∀ c ∈ t.selectors, c.length ≤ b) := by
  unfold PlonkTable.rowsAmount
  rw [maxSize_le, maxSize_le, maxSize_le, maxSize_le]
  simp [and_assoc]

theorem paddedRows_eq (u : Nat) (h : u < 2 ^ 31) :
    ∃ k, paddedRows u = some (2 ^ k) ∧ 8 ≤ 2 ^ k ∧ u < 2 ^ k ∧ 2 ^ k < 2 ^ 32 := by
  unfold paddedRows
  by_cases h0 : u = 0
  · subst h0; exact ⟨3, by simp, by norm_num, by norm_num, by norm_num⟩
  have hc : u ≤ 2 ^ Nat.clog 2 u := Nat.le_pow_clog (by norm_num) u
  have hc31 : Nat.clog 2 u ≤ 31 := Nat.clog_le_of_le_pow h.le
  have hp31 : 2 ^ Nat.clog 2 u ≤ 2 ^ 31 := Nat.pow_le_pow_right (by norm_num) hc31
  simp only [if_neg h0]
  rw [if_neg (by omega)]
  by_cases he : 2 ^ Nat.clog 2 u = u
  · rw [if_pos he]
    have h2 : 2 ^ Nat.clog 2 u * 2 % 2 ^ 32 = 2 ^ (Nat.clog 2 u + 1) := by
      rw [pow_succ 2 (Nat.clog 2 u), Nat.mod_eq_of_lt]; omega
    rw [h2]
    by_cases h8 : 2 ^ (Nat.clog 2 u + 1) < 8
    · exact ⟨3, by rw [if_pos h8]; norm_num, by norm_num, by rw [pow_succ 2 (Nat.clog 2 u)] at h8; omega, by norm_num⟩
    · refine ⟨Nat.clog 2 u + 1, by rw [if_neg h8], by omega, ?_, ?_⟩ <;> rw [pow_succ 2 (Nat.clog 2 u)] <;> omega
  · rw [if_neg he]
    by_cases h8 : 2 ^ (Nat.clog 2 u) < 8
    · exact ⟨3, by rw [if_pos h8]; norm_num, by norm_num, by omega, by norm_num⟩
    · exact ⟨Nat.clog 2 u, by rw [if_neg h8], by omega, by omega, by omega⟩

theorem resize_length {F : Type} (c : List F) (n : Nat) (v : F) : (resize c n v).length = n := by
  simp [resize]; omega

theorem resize_get_lt {F : Type} (c : List F) (n : Nat) (v : F) (i : Nat) (h : i < c.length)
    (hn : i < n) : (resize c n v)[i]? = c[i]? := by
  unfold resize
  rw [List.getElem?_append_left (by simp; omega), List.getElem?_take_of_lt hn]

theorem resize_get_ge {F : Type} (c : List F) (n : Nat) (v : F) (i : Nat) (h : c.length ≤ i)
    (hn : i < n) : (resize c n v)[i]? = some v := by
  unfold resize
  rw [List.getElem?_append_right (by simp; omega)]
  simp [List.getElem?_replicate]; omega

theorem fillColumns_length {F : Type} (rnd : Nat → F) (u p k : Nat) (cs : List (List F)) :
    (fillColumns rnd u p k cs).1.length = cs.length := by
  induction cs generalizing k with
  | nil => rfl
  | cons c cs ih => simp [fillColumns, ih]

theorem fillColumns_count {F : Type} (rnd : Nat → F) (u p k : Nat) (cs : List (List F)) :
    (fillColumns rnd u p k cs).2 = k + cs.length * (p - u) := by
  induction cs generalizing k with
  | nil => simp [fillColumns]
  | cons c cs ih => simp [fillColumns, ih]; ring

theorem fillColumns_get {F : Type} (rnd : Nat → F) (u p k : Nat) (cs : List (List F)) (j : Nat) :
    (fillColumns rnd u p k cs).1[j]? = (cs[j]?).map (fillRandom rnd u p (k + j * (p - u))) := by
  induction cs generalizing k j with
  | nil => simp [fillColumns]
  | cons c cs ih =>
    cases j with
    | zero => simp [fillColumns]
    | succ j =>
      simp only [fillColumns, List.getElem?_cons_succ, ih]
      congr 2; ring

theorem fillRandom_spec {F : Type} [Zero F] (rnd : Nat → F) (u p k : Nat) (c : List F)
    (hc : c.length ≤ u) (hup : u ≤ p) :
    (fillRandom rnd u p k (resize c u 0)).length = p ∧
    (∀ i < c.length, (fillRandom rnd u p k (resize c u 0))[i]? = c[i]?) ∧
    (∀ i, c.length ≤ i → i < u → (fillRandom rnd u p k (resize c u 0))[i]? = some 0) ∧
    (∀ i, u ≤ i → i < p → (fillRandom rnd u p k (resize c u 0))[i]? = some (rnd (k + (i - u)))) := by
  have hl : ((resize c u (0 : F)).take p).take u = resize c u 0 := by
    rw [List.take_of_length_le (by rw [List.length_take, resize_length]; omega),
      List.take_of_length_le (by rw [resize_length]; omega)]
  unfold fillRandom
  rw [hl]
  have hrl := resize_length c u (0 : F)
  refine ⟨by simp [hrl]; omega, fun i hi => ?_, fun i h1 h2 => ?_, fun i h1 h2 => ?_⟩
  · rw [List.getElem?_append_left (by omega), resize_get_lt _ _ _ _ hi (by omega)]
  · rw [List.getElem?_append_left (by omega), resize_get_ge _ _ _ _ h1 h2]
  · rw [List.getElem?_append_right (by omega), hrl]
    simp [List.getElem?_range (show i - u < p - u by omega)]

/-! ### parts -/

/-- the invariant of `lookup_parts`: the costs consumed so far, cut into the pushed parts followed
by the current one. -/
theorem parts_inv (mx : Nat) (costs : List Nat) :
    ∃ (segs : List (List Nat)) (cur : List Nat),
      costs = segs.flatten ++ cur ∧
      (costs.foldl (partsStep mx) ⟨[], 0, 0⟩).parts = segs.map List.length ∧
      (costs.foldl (partsStep mx) ⟨[], 0, 0⟩).part = cur.length ∧
      (costs.foldl (partsStep mx) ⟨[], 0, 0⟩).chunk = cur.sum ∧
      (cur.length ≤ 1 ∨ cur.sum < mx) ∧
      (∀ s ∈ segs, s.length ≤ 1 ∨ s.sum < mx) ∧
      (cur = [] → costs = []) ∧
      (∀ s ∈ segs.tail, s ≠ []) ∧
      (segs.head? = some [] → ∃ c, costs.head? = some c ∧ mx ≤ c) ∧
      ((∃ c, costs.head? = some c ∧ mx ≤ c) → segs.head? = some []) := by
  induction costs using List.reverseRecOn with
  | nil => exact ⟨[], [], by simp⟩
  | append_singleton l c ih =>
    obtain ⟨segs, cur, h1, h2, h3, h4, h5, h6, h7, h8, h9, h10⟩ := ih
    rw [List.foldl_append]
    set st := l.foldl (partsStep mx) ⟨[], 0, 0⟩
    simp only [List.foldl_cons, List.foldl_nil, partsStep]
    by_cases hge : st.chunk + c ≥ mx
    · rw [if_pos hge]
      refine ⟨segs ++ [cur], [c], by simp [h1], by simp [h2, h3], by simp, by simp, by simp, ?_,
        by simp, ?_, ?_, ?_⟩
      · intro s hs
        rcases List.mem_append.1 hs with hs | hs
        · exact h6 s hs
        · simp only [List.mem_singleton] at hs; subst hs; exact h5
      · intro s hs
        cases segs with
        | nil => simp at hs
        | cons a segs =>
          simp only [List.cons_append, List.tail_cons, List.mem_append, List.mem_singleton] at hs
          rcases hs with hs | hs
          · exact h8 s (by simpa using hs)
          · subst hs
            intro hc
            have hl := h7 hc
            -- the first part was pushed, so something was consumed
            subst hc
            subst hl
            simp only [List.foldl_nil, st] at h2
            simp at h2
      · cases segs with
        | nil =>
          intro hh
          simp only [List.nil_append, List.head?_cons, Option.some.injEq] at hh
          have hl := h7 hh
          subst hh; subst hl
          exact ⟨c, by simp, by simpa [st] using hge⟩
        | cons a segs =>
          intro hh
          simp only [List.cons_append, List.head?_cons] at hh
          obtain ⟨c', hc', hm⟩ := h9 (by simpa using hh)
          exact ⟨c', by rw [List.head?_append, hc']; rfl, hm⟩
      · rintro ⟨c', hc', hm⟩
        cases l with
        | nil =>
          have h11 := h1.symm
          rw [List.append_eq_nil_iff] at h11
          have : segs = [] := by
            have := h2.symm
            simp [st] at this
            simpa using this
          subst this
          simp [h11.2]
        | cons a l =>
          simp only [List.cons_append, List.head?_cons, Option.some.injEq] at hc'
          have := h10 ⟨c', by simp [hc'], hm⟩
          rw [List.head?_append, this]; rfl
    · rw [if_neg hge]
      push Not at hge
      refine ⟨segs, cur ++ [c], by simp [h1], h2, by simp [h3], by simp [h4], ?_, h6, by simp, h8, ?_, ?_⟩
      · right; simp; omega
      · intro hh
        obtain ⟨c', hc', hm⟩ := h9 hh
        exact ⟨c', by rw [List.head?_append, hc']; rfl, hm⟩
      · rintro ⟨c', hc', hm⟩
        cases l with
        | nil =>
          simp at hc'; subst hc'
          simp only [st, List.foldl_nil] at hge; omega
        | cons a l =>
          simp only [List.cons_append, List.head?_cons, Option.some.injEq] at hc'
          exact h10 ⟨c', by simp [hc'], hm⟩

end Crypto3Zk
