import Verif.Lemmas.KimchiVerify

/-!
# The prover's rounds
-/

set_option linter.unusedSectionVars false

namespace Crypto3Zk

variable {F : Type} [Field F] {G : Type} [AddCommGroup G] [Module F G] [DecidableEq G] {S : Type}

/-- the blinding factors of the rounds, as they enter `r_prime` -/
def blindSum : List (F × F) → List F → F
  | x :: xs, c :: cs => x.1 * c⁻¹ + x.2 * c + blindSum xs cs
  | _, _ => 0

theorem ipaBlind_eq : ∀ (rnd : List (F × F)) (cs : List F) (b : F),
    ipaBlind b rnd cs = b + blindSum rnd cs
  | [], cs, b => by cases cs <;> simp [ipaBlind, blindSum]
  | x :: rnd, [], b => by simp [ipaBlind, blindSum]
  | x :: rnd, c :: cs, b => by
    have := ipaBlind_eq rnd cs (b + (x.1 * c⁻¹ + x.2 * c))
    rw [ipaBlind] at this ⊢
    rw [List.zipWith_cons_cons, List.foldl_cons, this, blindSum]
    ring

/-- the rounds: they succeed, the verifier derives the same challenges, and the folded vectors satisfy
the equation of the argument -/
theorem ipaRounds_spec (sp : IpaSponge F G S) (h u : G) : ∀ (k : Nat) (rnd : List (F × F))
    (s : IpaFold F G) (st : S), k ≤ rnd.length → s.g.length = 2 ^ k → s.a.length = 2 ^ k →
    s.b.length = 2 ^ k →
    ∃ lr cs g0 a0 b0 st', ipaRounds sp h u k rnd s st = some (lr, cs, ⟨[g0], [a0], [b0]⟩, st') ∧
      lr.length = k ∧ ipaChallenges sp lr st = (cs, st') ∧ g0 = lin (coefRec cs) s.g ∧
      b0 = lin (coefRec cs) s.b ∧
      ((∀ c ∈ cs, c ≠ 0) → a0 • g0 + (a0 * b0) • u + blindSum rnd cs • h =
        lin s.a s.g + lin s.a s.b • u + lrSum lr cs)
  | 0, rnd, ⟨g, a, b⟩, st, _, hg, ha, hb => by
    obtain ⟨g0, rfl⟩ := List.length_eq_one_iff.mp hg
    obtain ⟨a0, rfl⟩ := List.length_eq_one_iff.mp ha
    obtain ⟨b0, rfl⟩ := List.length_eq_one_iff.mp hb
    refine ⟨[], [], g0, a0, b0, st, rfl, rfl, rfl, by simp [coefRec], by simp [coefRec], fun _ => ?_⟩
    cases rnd <;> simp [blindSum, lrSum]
  | k + 1, [], _, _, hr, _, _, _ => by simp at hr
  | k + 1, (rl, rr) :: rnd, ⟨g, a, b⟩, st, hr, hg, ha, hb => by
    simp only [pow_succ] at hg ha hb
    have tg : (g.take (2 ^ k)).length = 2 ^ k := by rw [List.length_take]; omega
    have dg : (g.drop (2 ^ k)).length = 2 ^ k := by rw [List.length_drop]; omega
    have ta : (a.take (2 ^ k)).length = 2 ^ k := by rw [List.length_take]; omega
    have da : (a.drop (2 ^ k)).length = 2 ^ k := by rw [List.length_drop]; omega
    have tb : (b.take (2 ^ k)).length = 2 ^ k := by rw [List.length_take]; omega
    have db : (b.drop (2 ^ k)).length = 2 ^ k := by rw [List.length_drop]; omega
    have sg := lin_split a g (2 ^ k)
    have sb := lin_split a b (2 ^ k)
    rw [ipaRounds]
    simp only [List.head?_cons, Option.bind_eq_bind, Option.bind_some, List.tail_cons]
    have eg := (List.take_append_drop (2 ^ k) g).symm
    have eb := (List.take_append_drop (2 ^ k) b).symm
    generalize g.take (2 ^ k) = gl at *
    generalize g.drop (2 ^ k) = gh at *
    generalize a.take (2 ^ k) = al at *
    generalize a.drop (2 ^ k) = ah at *
    generalize b.take (2 ^ k) = bl at *
    generalize b.drop (2 ^ k) = bh at *
    rw [multiexp_lin _ _ (by rw [tg, da]), multiexp_lin _ _ (by rw [dg, ta])]
    simp only [Option.bind_some, innerProd_lin]
    generalize hL : lin ah gl + rl • h + lin ah bl • u = L
    generalize hR : lin al gh + rr • h + lin al bh • u = R
    rcases hch : sp.challenge (sp.absorbG (sp.absorbG st L) R) with ⟨c, st1⟩
    have hch' : sp.4 (sp.absorbG (sp.absorbG st L) R) = (c, st1) := hch
    simp only [hch']
    obtain ⟨lr, cs, g0, a0, b0, st', e1, e2, e3, e4, e5, e6⟩ := ipaRounds_spec sp h u k rnd
      ⟨List.zipWith (fun hi lo => c • hi + lo) gh gl, List.zipWith (fun hi lo => hi * c⁻¹ + lo) ah al,
        List.zipWith (fun hi lo => hi * c + lo) bh bl⟩ st1 (by simpa using hr) (by simp [tg, dg])
        (by simp [ta, da]) (by simp [tb, db])
    rw [e1]
    have hbz : List.zipWith (fun hi lo => hi * c + lo) bh bl = List.zipWith (fun hi lo => c • hi + lo) bh bl := by
      congr 1
      funext x y
      rw [smul_eq_mul, mul_comm]
    have hcl : cs.length = k := by
      have := ipaChallenges_length sp lr st1
      rw [e3] at this
      rw [this, e2]
    rw [lin_fold_right _ _ _ _ (by rw [dg, tg])] at e4
    rw [hbz, lin_fold_right _ _ _ _ (by rw [db, tb])] at e5
    refine ⟨(L, R) :: lr, c :: cs, g0, a0, b0, st', rfl, by simp [e2], ?_, ?_, ?_, ?_⟩
    · rw [ipaChallenges, hch]
      dsimp only
      rw [e3]
    · rw [e4, coefRec, eg, lin_append' _ _ _ _ (by rw [coefRec_length, hcl, tg]), lin_map_mul, add_comm]
    · rw [e5, coefRec, eb, lin_append' _ _ _ _ (by rw [coefRec_length, hcl, tb]), lin_map_mul, add_comm]
    · intro hc0
      have hc := hc0 c (by simp)
      have e7 := e6 fun x hx => hc0 x (List.mem_cons_of_mem _ hx)
      dsimp only at e7 ⊢
      rw [hbz, lin_fold_left _ _ _ _ (by rw [da, ta]), lin_fold_left _ _ _ _ (by rw [da, ta]),
        lin_fold_right _ _ _ _ (by rw [dg, tg]), lin_fold_right _ _ _ _ (by rw [dg, tg]),
        lin_fold_right _ _ _ _ (by rw [db, tb]), lin_fold_right _ _ _ _ (by rw [db, tb])] at e7
      rw [blindSum, lrSum, sg, sb, ← hL, ← hR]
      have h1 : a0 • g0 + (a0 * b0) • u + (rl * c⁻¹ + rr * c + blindSum rnd cs) • h =
          (a0 • g0 + (a0 * b0) • u + blindSum rnd cs • h) + (rl * c⁻¹ + rr * c) • h := by module
      rw [h1, e7]
      simp only [smul_eq_mul]
      have h2 : c⁻¹ • (c • lin ah gh) = lin ah gh := by rw [smul_smul, inv_mul_cancel₀ hc, one_smul]
      have h3 : c⁻¹ * (c * lin ah bh) = lin ah bh := by rw [← mul_assoc, inv_mul_cancel₀ hc, one_mul]
      have h4 : (c⁻¹ * (c * lin ah bh + lin ah bl) + (c * lin al bh + lin al bl)) • u =
        (lin ah bh + c⁻¹ * lin ah bl + c * lin al bh + lin al bl) • u := by
        rw [mul_add, h3]
        ring_nf
      rw [h4, smul_add, h2]
      module

end Crypto3Zk
