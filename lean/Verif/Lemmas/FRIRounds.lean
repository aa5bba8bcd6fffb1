import Verif.Lemmas.FRI

/-!
# The rounds of FRI
-/

namespace Crypto3Zk

set_option linter.unusedSectionVars false

variable {F : Type} [Field F] {Tree Root Path S : Type} {L : FftLib F} {A : Nat}

theorem cosetIdx_even (n x k : Nat) :
    cosetIdx (2 ^ (n + 2)) x (2 * k) % 2 ^ (n + 1) =
      cosetIdx (2 ^ (n + 1)) (x % 2 ^ (n + 1)) k := by
  unfold cosetIdx
  rw [Nat.mod_mod_of_dvd _ (Nat.pow_dvd_pow 2 (by omega)), cosetOff_double,
    two_pow_succ_half, Nat.mod_add_mod]

theorem cosetIdx_odd (n x k : Nat) :
    cosetIdx (2 ^ (n + 2)) x (2 * k + 1) % 2 ^ (n + 1) =
      pairedIndex (cosetIdx (2 ^ (n + 1)) (x % 2 ^ (n + 1)) k) (2 ^ (n + 1)) := by
  unfold cosetIdx pairedIndex
  rw [Nat.mod_mod_of_dvd _ (Nat.pow_dvd_pow 2 (by omega)), cosetOff_double_add_one,
    two_pow_succ_half, two_pow_succ_half, two_pow_quarter, Nat.mod_add_mod, add_assoc, Nat.mod_add_mod]
  congr 1
  omega

theorem two_pow_quarter' (n : Nat) : 2 ^ (n + 1) / 4 = 2 ^ n / 2 := by
  rw [pow_succ]; omega

/-- One step of the colinearity check on honest values. -/
theorem friColinear_honest [DecidableEq F] (hL : L.Lawful A) (prm : FriParams F) (alphas : List F)
    (n s k : Nat) (hn : n + 1 < A) (hk : k + 1 ≤ s) (c : List F) (a : F) (w : FriWalk F)
    (hD : prm.D[w.t]? = some (L.domain (n + 2))) (hD' : prm.D[w.t + 1]? = some (L.domain (n + 1)))
    (ha : alphas[w.t]? = some a)
    (hy : w.y = cosetVals L (n + 1) c (w.xIndex % 2 ^ (n + 2)) (k + 1)) :
    ∃ w', friColinear prm alphas (s + 1) w = some w' ∧ w'.t = w.t + 1 ∧
      w'.xIndex = w.xIndex % 2 ^ (n + 2) ∧
      w'.y = cosetVals L n (foldList a c) (w'.xIndex % 2 ^ (n + 1)) k := by
  have hsz : ∀ k, (L.domain k).size = 2 ^ k := fun _ => rfl
  set x := w.xIndex % 2 ^ (n + 2) with hx
  have hxlt : x < 2 ^ (n + 2) := Nat.mod_lt _ (Nat.pow_pos (by norm_num))
  have hx'lt : x % 2 ^ (n + 1) < 2 ^ (n + 1) := Nat.mod_lt _ (Nat.pow_pos (by norm_num))
  have hsq : (L.domain (n + 1)).elem (x % 2 ^ (n + 1)) =
      (L.domain (n + 2)).elem x * (L.domain (n + 2)).elem x := by
    rw [elem_mod hL _ (by omega), elem_sq hL _ hn]
  refine ⟨⟨w.t + 1, (L.domain (n + 2)).elem x * (L.domain (n + 2)).elem x, x, 2 ^ (n + 2),
    cosetVals L n (foldList a c) (x % 2 ^ (n + 1)) k⟩, ?_, rfl, rfl, rfl⟩
  unfold friColinear
  simp only [hD, hD', ha, hsz, Option.bind_eq_bind, Option.bind_some, ← hx]
  rw [calculateS_eq n s _ hx'lt _ hsq, calculateS_eq (n + 1) s x hxlt _ rfl]
  simp only [Option.bind_some]
  have hlen : w.y.length / 2 = 2 ^ k := by
    rw [hy]; simp [cosetVals, two_pow_succ_half]
  rw [hlen, mapM_eq_some_map _ (fun i =>
    let m := cosetIdx (2 ^ (n + 1)) (x % 2 ^ (n + 1)) i % 2 ^ n
    (evalPoly (foldList a c) ((L.domain (n + 1)).elem m),
      evalPoly (foldList a c) ((L.domain (n + 1)).elem (m + 2 ^ n))))]
  · rfl
  · intro i hi
    rw [List.mem_range] at hi
    have hks : 2 ^ k < 2 ^ s := Nat.pow_lt_pow_right (by norm_num) (by omega)
    have hp : 2 ^ (k + 1) = 2 * 2 ^ k := by rw [pow_succ, mul_comm]
    rw [hy, interpolate_cosetVals hL (n + 1) s (k + 1) x (2 * i) hn c a (by omega) hk,
      interpolate_cosetVals hL (n + 1) s (k + 1) x (2 * i + 1) hn c a (by omega) hk]
    have e1 : (cosetPairs n (x % 2 ^ (n + 1)) s)[i]? =
        some (cosetIdx (2 ^ (n + 1)) (x % 2 ^ (n + 1)) i,
          pairedIndex (cosetIdx (2 ^ (n + 1)) (x % 2 ^ (n + 1)) i) (2 ^ (n + 1))) := by
      simp [cosetPairs, hi.trans hks]
    rw [e1]
    simp only [Option.bind_some]
    rw [← elem_mod hL (n + 1) (by omega) (cosetIdx (2 ^ (n + 1 + 1)) x (2 * i)),
      ← elem_mod hL (n + 1) (by omega) (cosetIdx (2 ^ (n + 1 + 1)) x (2 * i + 1)),
      cosetIdx_even, cosetIdx_odd]
    obtain ⟨p1, p2, _⟩ := pair_point hL n (x % 2 ^ (n + 1)) i (by omega)
    rw [← p1, ← p2]
    congr 1
    split_ifs <;> rfl

/-- `k` steps of the colinearity check on honest values. -/
theorem friColinears_honest [DecidableEq F] (hL : L.Lawful A) (prm : FriParams F) (s : Nat) :
    ∀ (k n : Nat) (as : List F) (c : List F) (w : FriWalk F) (alphas : List F),
    k ≤ s → as.length = k → n + k < A →
    (∀ i ≤ k, prm.D[w.t + i]? = some (L.domain (n + k + 1 - i))) →
    (∀ i < k, alphas[w.t + i]? = as[i]?) →
    w.y = cosetVals L (n + k) c (w.xIndex % 2 ^ (n + k + 1)) k →
    ∃ w', friColinears prm alphas (s + 1) k w = some w' ∧ w'.t = w.t + k ∧
      w'.xIndex % 2 ^ (n + 1) = w.xIndex % 2 ^ (n + 1) ∧
      w'.y = cosetVals L n (as.foldl (fun c a => foldList a c) c) (w'.xIndex % 2 ^ (n + 1)) 0 := by
  intro k
  induction k with
  | zero =>
    intro n as c w alphas _ has _ _ _ hy
    obtain rfl := List.length_eq_zero_iff.mp has
    exact ⟨w, rfl, rfl, rfl, hy⟩
  | succ k ih =>
    intro n as c w alphas hk has hA hD ha hy
    obtain ⟨a, as, rfl⟩ : ∃ a l, as = a :: l := by
      cases as with
      | nil => simp at has
      | cons a l => exact ⟨a, l, rfl⟩
    have hD0 := hD 0 (by omega)
    have hD1 := hD 1 (by omega)
    have ha0 := ha 0 (by omega)
    simp only [add_zero, Nat.sub_zero, List.getElem?_cons_zero] at hD0 ha0
    have hD1' : prm.D[w.t + 1]? = some (L.domain (n + k + 1)) := by
      rw [hD1]; congr 2
    obtain ⟨w1, hw1, ht, hx1, hy1⟩ := friColinear_honest hL prm alphas (n + k) s k (by omega) hk c a w
      hD0 hD1' ha0 hy
    obtain ⟨w2, hw2, ht2, hx2, hy2⟩ := ih n as (foldList a c) w1 alphas (by omega)
      (by simpa using has) (by omega)
      (by
        intro i hi
        have := hD (i + 1) (by omega)
        rw [ht, show w.t + 1 + i = w.t + (i + 1) by ring, this]
        congr 2
        omega)
      (by
        intro i hi
        have := ha (i + 1) (by omega)
        rw [ht, show w.t + 1 + i = w.t + (i + 1) by ring, this]
        rfl)
      hy1
    refine ⟨w2, ?_, by omega, ?_, hy2⟩
    · rw [friColinears, hw1]
      exact hw2
    · rw [hx2, hx1, Nat.mod_mod_of_dvd _ (Nat.pow_dvd_pow 2 (by omega))]

/-- The end of a round on honest values. -/
theorem friRoundEnd_honest [DecidableEq F] (hL : L.Lawful A) (prm : FriParams F) (alphas : List F)
    (n s : Nat) (hn : n < A) (c : List F) (a : F) (w : FriWalk F) (next : List (F × F)) (y0 : F × F)
    (hD : prm.D[w.t]? = some (L.domain (n + 1))) (ha : alphas[w.t]? = some a)
    (hy : w.y = cosetVals L n c (w.xIndex % 2 ^ (n + 1)) 0)
    (hnext : next[0]? = some y0)
    (hy0 : (if w.xIndex % 2 ^ n < 2 ^ n / 2 then y0.1 else y0.2) =
      evalPoly (foldList a c) ((L.domain n).elem w.xIndex)) :
    friRoundEnd prm alphas (s + 1) next w = some (some ⟨w.t,
      (L.domain (n + 1)).elem (w.xIndex % 2 ^ (n + 1)), w.xIndex % 2 ^ (n + 1), 2 ^ (n + 1), next⟩) := by
  have hsz : ∀ k, (L.domain k).size = 2 ^ k := fun _ => rfl
  have hxlt : w.xIndex % 2 ^ (n + 1) < 2 ^ (n + 1) := Nat.mod_lt _ (Nat.pow_pos (by norm_num))
  have hpos : 0 < 2 ^ n := Nat.pow_pos (by norm_num)
  unfold friRoundEnd
  simp only [hD, ha, hsz, Option.bind_eq_bind, Option.bind_some]
  rw [calculateS_eq n s _ hxlt _ rfl]
  simp only [Option.bind_some]
  rw [hy, interpolate_cosetVals hL n s 0 _ 0 hn c a (by norm_num) (by omega)]
  have e1 : (cosetPairs n (w.xIndex % 2 ^ (n + 1)) s)[0]? = some (w.xIndex % 2 ^ (n + 1),
      pairedIndex (w.xIndex % 2 ^ (n + 1)) (2 ^ (n + 1))) := by
    have : 0 < 2 ^ s := Nat.pow_pos (by norm_num)
    simp [cosetPairs, this, cosetIdx_zero _ _ hxlt]
  rw [e1]
  simp only [Option.bind_some, min_max_if]
  rw [(min_pairedIndex n _ hxlt).1, two_pow_succ_half, if_neg hpos.ne', hnext, two_pow_quarter',
    Nat.mod_mod, cosetIdx_zero _ _ hxlt, Nat.mod_mod_of_dvd _ (Nat.pow_dvd_pow 2 (by omega))]
  simp only [Option.bind_some]
  rw [hy0]
  have : (L.domain n).elem (w.xIndex % 2 ^ (n + 1)) = (L.domain n).elem w.xIndex := by
    rw [← elem_mod hL n (by omega), ← elem_mod hL n (by omega) w.xIndex,
      Nat.mod_mod_of_dvd _ (Nat.pow_dvd_pow 2 (by omega))]
  rw [this]
  simp

theorem zip_map_left_self {α β : Type} (g : α → β) : ∀ l : List α,
    (l.map g).zip l = l.map fun a => (g a, a)
  | [] => rfl
  | a :: l => by simp [zip_map_left_self g l]

theorem mapM_range_map {α β : Type} (n : Nat) (g : Nat → α) (f : α → Option β) (h : Nat → β)
    (hfg : ∀ i < n, f (g i) = some (h i)) :
    ((List.range n).map g).mapM f = some ((List.range n).map h) := by
  rw [List.mapM_map]
  exact mapM_eq_some_map _ _ _ fun i hi => hfg i (List.mem_range.mp hi)

/-- What the commit phase leaves behind, over the remaining steps: `as` are the challenges, `trees`
and `fs` the trees and polynomials from round `t` on. -/
def FriHonest (L : FftLib F) (M : MerkleLib F Tree Root Path) (n : Nat) :
    List Nat → Nat → List F → List F → List Tree → List (FriPoly F) → Prop
  | [], t, c, as, trees, fs =>
    as = [] ∧ trees = [] ∧ ∃ f, fs = [f] ∧ f.Represents (L.domain (n - t)) c
  | s :: rest, t, c, as, trees, fs => ∃ a1 a2 leaves trs f fs', as = a1 ++ a2 ∧ a1.length = s ∧
      friLeaves [(L.domain (n - t)).evals c] (2 ^ (n - t)) s = some leaves ∧
      trees = M.build leaves :: trs ∧ fs = f :: fs' ∧ f.Represents (L.domain (n - t)) c ∧
      FriHonest L M n rest (t + s) (foldAll a1 c) a2 trs fs'

theorem friFinalCheck_honest [DecidableEq F] (hL : L.Lawful A) (prm : FriParams F) (n : Nat) (hn : n < A)
    (final : List F) (w : FriWalk F) (hD : prm.D[w.t]? = some (L.domain (n + 1))) (x : Nat)
    (hx : w.xIndex % 2 ^ (n + 1) = x % 2 ^ (n + 1))
    (hy : w.y = [if x % 2 ^ (n + 1) % 2 ^ n < 2 ^ n / 2 then
        (evalPoly final ((L.domain (n + 1)).elem (x % 2 ^ (n + 1)) *
          (L.domain (n + 1)).elem (x % 2 ^ (n + 1))),
        evalPoly final (-((L.domain (n + 1)).elem (x % 2 ^ (n + 1)) *
          (L.domain (n + 1)).elem (x % 2 ^ (n + 1)))))
      else
        (evalPoly final (-((L.domain (n + 1)).elem (x % 2 ^ (n + 1)) *
          (L.domain (n + 1)).elem (x % 2 ^ (n + 1)))),
        evalPoly final ((L.domain (n + 1)).elem (x % 2 ^ (n + 1)) *
          (L.domain (n + 1)).elem (x % 2 ^ (n + 1))))]) :
    friFinalCheck prm final w = some true := by
  have hsz : ∀ k, (L.domain k).size = 2 ^ k := fun _ => rfl
  have hpos : 0 < 2 ^ n := Nat.pow_pos (by norm_num)
  unfold friFinalCheck
  simp only [hD, hsz, Option.bind_eq_bind, Option.bind_some, two_pow_succ_half, if_neg hpos.ne', hy,
    hx, List.getElem?_cons_zero, two_pow_quarter']
  split_ifs <;> simp

/-- The next values of a round that is not the last. -/
theorem friNext_head (hL : L.Lawful A) (m x s : Nat) (hm : m < A) (c : List F) :
    ∃ y0, (cosetVals L m c (x % 2 ^ (m + 1)) s)[0]? = some y0 ∧
      (if x % 2 ^ (m + 1) < 2 ^ (m + 1) / 2 then y0.1 else y0.2) =
        evalPoly c ((L.domain (m + 1)).elem x) := by
  have hpos : 0 < 2 ^ s := Nat.pow_pos (by norm_num)
  have hxlt : x % 2 ^ (m + 1) < 2 ^ (m + 1) := Nat.mod_lt _ (Nat.pow_pos (by norm_num))
  have hp : 2 ^ (m + 1) = 2 * 2 ^ m := by rw [pow_succ, mul_comm]
  refine ⟨_, by simp [cosetVals, hpos]; rfl, ?_⟩
  simp only
  rw [cosetIdx_zero _ _ hxlt, two_pow_succ_half, ← elem_mod hL (m + 1) (by omega) x]
  generalize x % 2 ^ (m + 1) = z at *
  rw [mod_of_lt_two_mul z (2 ^ m) (by omega)]
  by_cases h : z < 2 ^ m
  · simp [h]
  · simp only [if_neg h]
    congr 2
    omega

/-- One round of the verifier on honest values, up to the comparison with the next values. -/
theorem friRound_honest [DecidableEq F] [DecidableEq Root] (hL : L.Lawful A)
    (M : MerkleLib F Tree Root Path) (hM : M.Lawful) (prm : FriParams F) (alphas : List F)
    (m s : Nat) (hs : s ≤ m) (hm : m < A) (as : List F) (a : F) (c : List F) (w : FriWalk F)
    (has : as.length = s)
    (hD : ∀ i ≤ s, prm.D[w.t + i]? = some (L.domain (m + 1 - i)))
    (halpha : ∀ i < s + 1, alphas[w.t + i]? = (as ++ [a])[i]?)
    (hx : w.xIndex < 2 ^ (m + 1)) (hxe : (L.domain (m + 1)).elem w.xIndex = w.x)
    (hds : w.domainSize = 2 ^ (m + 1))
    (hy : w.y = cosetVals L m c w.xIndex s) (leaves : List (List F))
    (hleaves : friLeaves [(L.domain (m + 1)).evals c] (2 ^ (m + 1)) (s + 1) = some leaves)
    (next : List (F × F)) (y0 : F × F) (hnext : next[0]? = some y0)
    (hy0 : (if w.xIndex % 2 ^ (m - s) < 2 ^ (m - s) / 2 then y0.1 else y0.2) =
      evalPoly (foldAll (as ++ [a]) c) ((L.domain (m - s)).elem w.xIndex)) :
    ∃ i, foldedIndex w.xIndex (2 ^ (m + 1)) (s + 1) = some i ∧
    ∃ w', friRound M prm alphas (s + 1) (M.root (M.build leaves))
        ⟨next, M.path (M.build leaves) (specializedIndex i (2 ^ (m + 1)))⟩ w = some (some w') ∧
      w'.t = w.t + s ∧ w'.xIndex % 2 ^ (m - s + 1) = w.xIndex % 2 ^ (m - s + 1) ∧ w'.y = next := by
  have hpos : 0 < 2 ^ (m - s) := Nat.pow_pos (by norm_num)
  have hp : 2 ^ (m + 1) = 2 * 2 ^ m := by rw [pow_succ, mul_comm]
  have hle : 2 ^ (m - s) ≤ 2 ^ m := Nat.pow_le_pow_right (by norm_num) (by omega)
  set x0 := w.xIndex % 2 ^ (m - s) with hx0
  have hx0lt : x0 < 2 ^ (m - s) := Nat.mod_lt _ hpos
  refine ⟨x0, by rw [foldedIndex_eq _ _ _ (by omega) hx, show m + 1 - (s + 1) = m - s by omega], ?_⟩
  have hspec : specializedIndex x0 (2 ^ (m + 1)) = x0 := by
    unfold specializedIndex
    rw [(min_pairedIndex m x0 (by omega)).1, Nat.mod_eq_of_lt (by omega)]
  rw [hspec]
  have hl := friLeaves_eq (L := L) m s hs [c]
  simp only [List.map_cons, List.map_nil] at hl
  rw [hl] at hleaves
  obtain rfl := Option.some.inj hleaves
  obtain ⟨order, ho, hre⟩ := reorder_cosetVals (L := L) m s w.xIndex hs hx
  unfold friRound
  rw [hM.root (m - s) _ x0 (by simp) hx0lt, if_neg (by simp)]
  have hD0 := hD 0 (by omega)
  simp only [add_zero, Nat.sub_zero] at hD0
  simp only [hD0, Option.bind_eq_bind, Option.bind_some]
  rw [calculateS_eq m s _ hx _ hxe]
  simp only [Option.bind_some, hds, ho, hy, hre]
  have hval := hM.validate (m - s) ((List.range (2 ^ (m - s))).map fun x =>
    [leafVals L m s c x].flatten) x0 (by simpa using hx0lt) (by simp)
  simp only [List.getElem_map, List.getElem_range, List.flatten_cons, List.flatten_nil,
    List.append_nil] at hval
  simp only [List.flatten_cons, List.flatten_nil, List.append_nil]
  rw [hval, if_pos rfl]
  obtain ⟨w1, hw1, ht1, hx1, hy1⟩ := friColinears_honest hL prm s s (m - s) as c w alphas le_rfl has
    (by omega)
    (by intro i hi; rw [hD i hi]; congr 2; omega)
    (by
      intro i hi
      rw [halpha i (by omega), List.getElem?_append_left (by omega)])
    (by rw [show m - s + s = m by omega, Nat.mod_eq_of_lt hx]; exact hy)
  rw [show s + 1 - 1 = s by omega, hw1]
  simp only [Option.bind_some]
  have hDs := hD s le_rfl
  rw [← ht1, show m + 1 - s = m - s + 1 by omega] at hDs
  have hx1' : w1.xIndex % 2 ^ (m - s) = w.xIndex % 2 ^ (m - s) := by
    have := congrArg (· % 2 ^ (m - s)) hx1
    simpa [Nat.mod_mod_of_dvd _ (Nat.pow_dvd_pow 2 (show m - s ≤ m - s + 1 by omega))] using this
  have hx1e : (L.domain (m - s)).elem w1.xIndex = (L.domain (m - s)).elem w.xIndex := by
    rw [← elem_mod hL _ (by omega), hx1', elem_mod hL _ (by omega)]
  refine ⟨_, friRoundEnd_honest hL prm alphas (m - s) s (by omega) _ a w1 next y0 hDs
    (by rw [ht1, halpha s (by omega), List.getElem?_append_right (by omega), has]; simp)
    hy1 hnext ?_, ht1, ?_, rfl⟩
  · rw [hx1', hx1e, ← hx0, hy0]
    simp [foldAll]
  · simp only [Nat.mod_mod]
    exact hx1

/-- The rounds of one query: the prover's round proofs exist, and the verifier accepts them. -/
theorem friRounds_honest [DecidableEq F] [DecidableEq Root] (hL : L.Lawful A)
    (M : MerkleLib F Tree Root Path) (hM : M.Lawful) (prm : FriParams F) (n r : Nat)
    (hD : ∀ t < r, prm.D[t]? = some (L.domain (n - t))) (hr : r ≤ n) (hA : n ≤ A)
    (final : List F) (alphas : List F) :
    ∀ (rest : List Nat) (s t : Nat) (c as : List F) (trees : List Tree) (fs : List (FriPoly F))
      (w : FriWalk F),
    (∀ s' ∈ s :: rest, 1 ≤ s') → t + (s :: rest).sum = r →
    FriHonest L M n (s :: rest) t c as trees fs →
    (∀ i < as.length, alphas[t + i]? = as[i]?) →
    (∀ x, evalPoly final x = evalPoly (foldAll as c) x) →
    w.t = t → w.xIndex < 2 ^ (n - t) → (L.domain (n - t)).elem w.xIndex = w.x →
    w.domainSize = 2 ^ (n - t) → w.y = cosetVals L (n - t - 1) c w.xIndex (s - 1) →
    ∃ rps, friRoundProofs M prm final (s :: rest) trees fs.tail t w.xIndex = some rps ∧
      ∃ w', friRounds M prm alphas (s :: rest) (trees.map M.root) rps w = some (some w') ∧
        friFinalCheck prm final w' = some true := by
  have hsz : ∀ k, (L.domain k).size = 2 ^ k := fun _ => rfl
  intro rest
  induction rest with
  | nil =>
    intro s t c as trees fs w hpos hsum hH halpha hfinal hwt hwx hwe hwd hwy
    obtain ⟨a1, a2, leaves, trs, f, fs', rfl, ha1, hleaves, rfl, rfl, hf, rfl, rfl, g, rfl, hg⟩ := hH
    have hs1 : 1 ≤ s := hpos s (by simp)
    simp only [List.sum_cons, List.sum_nil, add_zero] at hsum
    obtain ⟨s, rfl⟩ : ∃ k, s = k + 1 := ⟨s - 1, by omega⟩
    obtain ⟨m, hm⟩ : ∃ m, n - t = m + 1 := ⟨n - t - 1, by omega⟩
    have hms : s ≤ m := by omega
    obtain ⟨b1, a, rfl⟩ : ∃ b a, a1 = b ++ [a] := by
      rcases List.eq_nil_or_concat a1 with h | ⟨b, a, h⟩
      · rw [h] at ha1; simp at ha1
      · exact ⟨b, a, by simpa using h⟩
    simp only [List.append_nil] at *
    rw [hm] at hwx hwe hwd hwy hleaves hf
    simp only [Nat.add_sub_cancel] at hwy
    have hb1 : b1.length = s := by simpa using ha1
    set x := w.xIndex with hx
    obtain ⟨y0, hy0⟩ : ∃ y0 : F × F, y0 = (if x % 2 ^ (m - s + 1) % 2 ^ (m - s) < 2 ^ (m - s) / 2 then
        (evalPoly final ((L.domain (m - s + 1)).elem (x % 2 ^ (m - s + 1)) *
          (L.domain (m - s + 1)).elem (x % 2 ^ (m - s + 1))),
        evalPoly final (-((L.domain (m - s + 1)).elem (x % 2 ^ (m - s + 1)) *
          (L.domain (m - s + 1)).elem (x % 2 ^ (m - s + 1)))))
      else
        (evalPoly final (-((L.domain (m - s + 1)).elem (x % 2 ^ (m - s + 1)) *
          (L.domain (m - s + 1)).elem (x % 2 ^ (m - s + 1)))),
        evalPoly final ((L.domain (m - s + 1)).elem (x % 2 ^ (m - s + 1)) *
          (L.domain (m - s + 1)).elem (x % 2 ^ (m - s + 1))))) := ⟨_, rfl⟩
    have hfold : (if x % 2 ^ (m - s) < 2 ^ (m - s) / 2 then y0.1 else y0.2) =
          evalPoly (foldAll (b1 ++ [a]) c) ((L.domain (m - s)).elem x) := by
      have e1 : x % 2 ^ (m - s + 1) % 2 ^ (m - s) = x % 2 ^ (m - s) :=
        Nat.mod_mod_of_dvd _ (Nat.pow_dvd_pow 2 (by omega))
      have e2 : (L.domain (m - s + 1)).elem (x % 2 ^ (m - s + 1)) *
          (L.domain (m - s + 1)).elem (x % 2 ^ (m - s + 1)) = (L.domain (m - s)).elem x := by
        rw [elem_mod hL _ (by omega), elem_sq hL _ (by omega)]
      rw [hy0, e1, e2, ← hfinal]
      split_ifs <;> rfl
    obtain ⟨i, hi, w', hw', hwt', hwx', hwy'⟩ := friRound_honest hL M hM prm alphas m s hms (by omega) b1 a c w
      hb1 (by intro i hi; rw [hwt, hD _ (by omega)]; congr 2; omega)
      (by intro i hi; rw [hwt]; exact halpha i (by simp; omega))
      hwx hwe hwd hwy leaves hleaves [y0] _ rfl hfold
    rw [← hx] at hi
    refine ⟨[⟨[y0], M.path (M.build leaves) (specializedIndex i (2 ^ (m + 1)))⟩], ?_, w', ?_, ?_⟩
    rotate_left
    · simp only [friRounds, List.head?_cons, List.map_cons, Option.bind_eq_bind, Option.bind_some,
        hw']
    · refine friFinalCheck_honest hL prm (m - s) (by omega) final w' ?_ x hwx' (hy0 ▸ hwy')
      rw [hwt', hwt, hD _ (by omega)]
      congr 2
      omega
    · have hD0 := hD t (by omega)
      rw [hm] at hD0
      have hDs := hD (t + (s + 1) - 1) (by omega)
      rw [show n - (t + (s + 1) - 1) = m - s + 1 by omega] at hDs
      have hpos' : 0 < 2 ^ (m - s) := Nat.pow_pos (by norm_num)
      simp only [friRoundProofs, hD0, hDs, hsz, Option.bind_eq_bind, Option.bind_some,
        Nat.mod_eq_of_lt hwx, hi, List.head?_cons, two_pow_succ_half, if_neg hpos'.ne',
        two_pow_quarter', hy0]
  | cons s2 rest ih =>
    intro s t c as trees fs w hpos hsum hH halpha hfinal hwt hwx hwe hwd hwy
    obtain ⟨a1, a2, leaves, trs, f, fs', rfl, ha1, hleaves, rfl, rfl, hf, hH2⟩ := hH
    have hs1 : 1 ≤ s := hpos s (by simp)
    have hs2 : 1 ≤ s2 := hpos s2 (by simp)
    simp only [List.sum_cons] at hsum
    obtain ⟨s, rfl⟩ : ∃ k, s = k + 1 := ⟨s - 1, by omega⟩
    obtain ⟨m, hm⟩ : ∃ m, n - t = m + 1 := ⟨n - t - 1, by omega⟩
    have hms : s + 1 ≤ m := by omega
    obtain ⟨b1, a, rfl⟩ : ∃ b a, a1 = b ++ [a] := by
      rcases List.eq_nil_or_concat a1 with h | ⟨b, a, h⟩
      · rw [h] at ha1; simp at ha1
      · exact ⟨b, a, by simpa using h⟩
    rw [hm] at hwx hwe hwd hwy hleaves hf
    simp only [Nat.add_sub_cancel] at hwy
    have hb1 : b1.length = s := by simpa using ha1
    set x := w.xIndex with hx
    obtain ⟨m2, hm2⟩ : ∃ m2, m - s = m2 + 1 := ⟨m - s - 1, by omega⟩
    have hn2 : n - (t + (s + 1)) = m2 + 1 := by omega
    set c' := foldAll (b1 ++ [a]) c with hc'
    obtain ⟨y0, hy0, hy0'⟩ := friNext_head hL m2 x (s2 - 1) (by omega) c'
    obtain ⟨i, hi, w1, hw1, hwt1, hwx1, hwy1⟩ := friRound_honest hL M hM prm alphas m s (by omega) (by omega)
      b1 a c w hb1 (by intro i hi; rw [hwt, hD _ (by omega)]; congr 2; omega)
      (by
        intro i hi
        rw [hwt, halpha i (by simp; omega), List.getElem?_append_left (by simp; omega)])
      hwx hwe hwd hwy leaves hleaves (cosetVals L m2 c' (x % 2 ^ (m2 + 1)) (s2 - 1)) y0 hy0
      (by rw [hm2]; exact hy0')
    rw [← hx] at hi
    have hwx2 : w1.xIndex % 2 ^ (m2 + 1) = x % 2 ^ (m2 + 1) := by
      have := congrArg (· % 2 ^ (m2 + 1)) hwx1
      simpa [Nat.mod_mod_of_dvd _ (Nat.pow_dvd_pow 2 (show m2 + 1 ≤ m - s + 1 by omega))] using this
    have hx2lt : x % 2 ^ (m2 + 1) < 2 ^ (m2 + 1) := Nat.mod_lt _ (Nat.pow_pos (by norm_num))
    obtain ⟨rps, hrps, w2, hw2, hfin⟩ := ih s2 (t + (s + 1)) c' a2 trs fs'
      ⟨w1.t + 1, (L.domain (m2 + 1)).elem (x % 2 ^ (m2 + 1)), x % 2 ^ (m2 + 1), 2 ^ (m2 + 1), w1.y⟩
      (fun s' hs' => hpos s' (by simp only [List.mem_cons] at hs' ⊢; tauto))
      (by simp only [List.sum_cons]; omega) hH2
      (by
        intro i hi
        have := halpha ((b1 ++ [a]).length + i) (by simp only [List.length_append] at hi ⊢; omega)
        rw [List.getElem?_append_right (by omega), ha1] at this
        rw [show t + (s + 1) + i = t + (s + 1 + i) by ring, this]
        congr 1
        omega)
      (by intro z; rw [hfinal, hc']; simp [foldAll])
      (by simp only; omega) (by rw [hn2]; exact hx2lt) (by rw [hn2]) (by rw [hn2])
      (by rw [hn2]; exact hwy1)
    refine ⟨⟨cosetVals L m2 c' (x % 2 ^ (m2 + 1)) (s2 - 1),
      M.path (M.build leaves) (specializedIndex i (2 ^ (m + 1)))⟩ :: rps, ?_, w2, ?_, hfin⟩
    rotate_left
    · rw [friRounds]
      simp only [List.head?_cons, List.map_cons, Option.bind_eq_bind, Option.bind_some, hw1]
      have hD2 := hD (t + (s + 1)) (by omega)
      rw [hn2] at hD2
      rw [show w1.t + 1 = t + (s + 1) by omega, hD2]
      simp only [Option.bind_some, hsz, hwx2, List.tail_cons]
      rw [show w1.t + 1 = t + (s + 1) by omega] at hw2
      exact hw2
    · have hD0 := hD t (by omega)
      rw [hm] at hD0
      have hD2 := hD (t + (s + 1)) (by omega)
      rw [hn2] at hD2
      rw [friRoundProofs]
      simp only [hD0, hD2, hsz, Option.bind_eq_bind, Option.bind_some, Nat.mod_eq_of_lt hwx, hi,
        List.head?_cons, List.tail_cons]
      obtain ⟨s2', rfl⟩ : ∃ k, s2 = k + 1 := ⟨s2 - 1, by omega⟩
      rw [calculateS_eq m2 s2' _ hx2lt _ rfl]
      obtain ⟨b1', b2', leaves', trs', f', fs'', hb, hb', hl', ht', hf', hfr, _⟩ := hH2
      rw [hf']
      simp only [Option.bind_some, List.head?_cons]
      rw [hn2] at hfr
      have hmap : (((cosetPairs m2 (x % 2 ^ (m2 + 1)) s2').map fun p =>
            ((L.domain (m2 + 1)).elem p.1, (L.domain (m2 + 1)).elem p.2)).zip
            (cosetPairs m2 (x % 2 ^ (m2 + 1)) s2')).mapM (fun p => f'.roundPair p.1 p.2) =
          some (cosetVals L m2 c' (x % 2 ^ (m2 + 1)) s2') := by
        rw [zip_map_left_self]
        unfold cosetPairs cosetVals
        rw [List.map_map]
        refine mapM_range_map _ _ _ _ fun i _ => ?_
        exact represents_roundPair hL m2 (by omega) c' f' hfr _ i
      rw [hmap]
      simp only [Option.bind_some]
      rw [← hf', hrps]
      rfl

end Crypto3Zk
