import Verif.Spec.EncryptedInput
import Mathlib.Tactic.Ring
import Mathlib.Tactic.Abel
import Mathlib.Tactic.FieldSimp
import Mathlib.Tactic.Module

/-!
# Closed form of the verifier for encrypted inputs
-/

set_option linter.unusedSectionVars false

namespace Crypto3Zk

variable {F G1 G2 GT : Type} [Field F] [DecidableEq F] [AddCommGroup G1] [Module F G1]
  [AddCommGroup G2] [Module F G2] [AddCommGroup GT] [Module F GT]

theorem encLoop_eq (P : Pairing F G1 G2 GT) :
    ∀ (cs : List G1) (ts : List G2) (acc : G1) (sum : GT), cs.length = ts.length →
      encLoop P cs ts acc sum =
        ([], [], acc + cs.sum, sum + (List.zipWith (fun c t => P.e c t) cs ts).sum)
  | [], [], acc, sum, _ => by simp [encLoop]
  | c :: cs, t :: ts, acc, sum, h => by
    rw [encLoop, encLoop_eq P cs ts _ _ (by simpa using h)]
    simp [add_assoc]

theorem encLoop_left (P : Pairing F G1 G2 GT) :
    ∀ (cs : List G1) (ts : List G2) (acc : G1) (sum : GT),
      ((encLoop P cs ts acc sum).1.isEmpty = true ∧ (encLoop P cs ts acc sum).2.1.isEmpty = true) →
        cs.length = ts.length
  | [], [], _, _, _ => rfl
  | [], _ :: _, _, _, h => by simp [encLoop] at h
  | _ :: _, [], _, _, h => by simp [encLoop] at h
  | c :: cs, t :: ts, acc, sum, h => by
    rw [encLoop] at h
    simpa using encLoop_left P cs ts _ _ h

theorem subSize_of_le {a b : Nat} (h : b ≤ a) (ha : a < 2 ^ 64) : subSize a b = a - b := by
  rw [subSize, show a + 2 ^ 64 - b = (a - b) + 2 ^ 64 by omega, Nat.add_mod_right]
  exact Nat.mod_eq_of_lt (by omega)

theorem subSize_of_lt {a b : Nat} (h : a < b) (hb : b ≤ 2 ^ 64) : subSize a b = a + 2 ^ 64 - b := by
  rw [subSize]
  exact Nat.mod_eq_of_lt (by omega)

/-- the loop over the plain inputs -/
theorem encInputs_eq (ctLen n : Nat) (hct : ctLen = n + 2) (rest : List G1) :
    ∀ (k : Nat) (un : List F) (acc : G1), n + k + un.length = rest.length →
      rest.length + 2 < 2 ^ 64 → ∀ (full : List F), full.drop k = un → k + un.length = full.length →
      (List.range' (n + k) un.length).foldlM (fun acc i => do
          let x ← full[(subSize i ctLen + 2) % 2 ^ 64]?
          let g ← rest[i]?
          pure (acc + x • g)) acc
        = some (acc + (List.zipWith (fun x g => x • g) un (rest.drop (n + k))).sum) := by
  intro k un
  induction un generalizing k with
  | nil => intro acc _ _ full _ _; simp
  | cons x un ih =>
    intro acc h1 h2 full hf hl
    simp only [List.length_cons] at h1 hl
    have hi : (subSize (n + k) ctLen + 2) % 2 ^ 64 = k := by
      subst hct
      by_cases hk : 2 ≤ k
      · rw [subSize_of_le (by omega) (by omega)]
        rw [show n + k - (n + 2) + 2 = k by omega]
        exact Nat.mod_eq_of_lt (by omega)
      · rw [subSize_of_lt (by omega) (by omega), show n + k + 2 ^ 64 - (n + 2) + 2 = k + 2 ^ 64 by omega,
          Nat.add_mod_right]
        exact Nat.mod_eq_of_lt (by omega)
    have hx : full[k]? = some x := by
      have : (full.drop k)[0]? = some x := by rw [hf]; rfl
      simpa using this
    have hg : rest[n + k]? = some rest[n + k] := List.getElem?_eq_getElem (by omega)
    rw [List.length_cons, List.range'_succ, List.foldlM_cons, hi, hx, hg]
    simp only [Option.bind_eq_bind, Option.bind_some, Option.pure_def]
    have := ih (k + 1) (acc + x • rest[n + k]) (by omega) h2 full
      (by rw [← List.drop_drop, hf]; simp) (by omega)
    simp only [Option.bind_eq_bind, Option.pure_def] at this
    rw [show n + k + 1 = n + (k + 1) by omega, this, List.drop_eq_getElem_cons (i := n + k) (by omega)]
    simp [add_assoc]

theorem guard_bind {α : Type} {p : Prop} [Decidable p] (h : p) (f : Unit → Option α) :
    (guard p >>= f) = f () := by
  simp [guard, h]

theorem encVerify_verdict [DecidableEq GT] (P : Pairing F G1 G2 GT) (c0 : G1) (cs : List G1) (ψ : G1)
    (vk : Groth16ExtVK G1 G2 GT) (pub : EncPublicKey G1 G2) (un : List F) (π : Groth16Proof G1 G2)
    (hlen : vk.gammaABC.rest.length + 2 < 2 ^ 64)
    (hun : vk.gammaABC.rest.length = cs.length + un.length)
    (h2 : 2 ≤ un.length ∨ vk.gammaABC.rest.length = 0)
    (hs : pub.deltaSG1.length = cs.length) (ht1 : pub.tG1.length = cs.length)
    (ht2 : pub.tG2.length = cs.length + 1) :
    encVerify P (c0 :: (cs ++ [ψ])) vk pub un π = some (decide
      ((List.zipWith (fun c t => P.e c t) (c0 :: cs) pub.tG2).sum = P.e ψ P.one2 ∧
        P.e π.gA π.gB = vk.alphaBeta + P.e (vk.gammaABC.first + (c0 + cs.sum) +
          (List.zipWith (fun x g => x • g) un (vk.gammaABC.rest.drop cs.length)).sum) vk.gammaG2
          + P.e π.gC vk.deltaG2)) := by
  have hn : subSize (c0 :: (cs ++ [ψ])).length 2 = cs.length := by
    rw [subSize_of_le (by simp) (by simp; omega)]; simp
  have g1 : subSize vk.gammaABC.rest.length 1 > cs.length := by
    rcases h2 with h2 | h2
    · rw [subSize_of_le (by omega) (by omega)]; omega
    · rw [subSize_of_lt (by omega) (by omega)]; omega
  have g2 : (un.length + cs.length) % 2 ^ 64 = vk.gammaABC.rest.length := by
    rw [Nat.mod_eq_of_lt (by omega)]; omega
  have g5 : cs.length = subSize pub.tG2.length 1 := by
    rw [subSize_of_le (by omega) (by omega)]; omega
  have hdl : (c0 :: (cs ++ [ψ])).dropLast = c0 :: cs := by
    rw [← List.cons_append, List.dropLast_concat]
  have hgl : (c0 :: (cs ++ [ψ])).getLast? = some ψ := by
    rw [← List.cons_append, List.getLast?_concat]
  have hin := encInputs_eq (F := F) (c0 :: (cs ++ [ψ])).length cs.length (by simp) vk.gammaABC.rest 0 un
    (vk.gammaABC.first + (c0 :: cs).sum) (by omega) hlen un (by simp) (by simp)
  rw [Nat.add_zero] at hin
  rw [encVerify]
  simp only [hn]
  rw [guard_bind g1, guard_bind g2, guard_bind hs.symm, guard_bind ht1.symm, guard_bind g5, hgl, hdl,
    encLoop_eq P _ _ _ _ (by simp [ht2])]
  simp only [Option.bind_eq_bind, Option.bind_some] at hin ⊢
  rw [← Option.bind_eq_bind, guard_bind (by simp), show vk.gammaABC.rest.length - cs.length = un.length by
    omega, hin]
  simp only [Option.bind_some, Option.pure_def, zero_add, List.sum_cons, Bool.decide_and]

theorem zipWith_smul_append : ∀ (m un : List F) (rest : List G1), m.length ≤ rest.length →
    (List.zipWith (fun a g => a • g) (m ++ un) rest).sum =
      (List.zipWith (fun a g => a • g) m rest).sum +
        (List.zipWith (fun a g => a • g) un (rest.drop m.length)).sum
  | [], un, rest, _ => by simp
  | a :: m, un, [], h => by simp at h
  | a :: m, un, g :: rest, h => by
    have := zipWith_smul_append m un rest (by simpa using h)
    simp only [List.cons_append, List.zipWith_cons_cons, List.sum_cons, List.length_cons,
      List.drop_succ_cons, this, add_assoc]

theorem sum_sub_smul (c0 : G1) : ∀ (cs : List G1) (s : List F), s.length = cs.length →
    (List.zipWith (fun c a => c - a • c0) cs s).sum = cs.sum - s.sum • c0
  | [], [], _ => by simp
  | c :: cs, a :: s, h => by
    have := sum_sub_smul c0 cs s (by simpa using h)
    simp only [List.zipWith_cons_cons, List.sum_cons, this, add_smul]
    abel

theorem sum_pair_smul (P : Pairing F G1 G2 GT) (h : G2) : ∀ (cs : List G1) (t : List F),
    (List.zipWith (fun c t => P.e c t) cs (t.map (· • h))).sum =
      P.e (List.zipWith (fun a c => a • c) t cs).sum h
  | [], t => by simp
  | c :: cs, [] => by simp
  | c :: cs, a :: t => by
    have := sum_pair_smul P h cs t
    simp [this]

/-- `Σ t_i (r s_i δ + m_i G_i) = r (Σ s_i t_i) δ + Σ m_i (t_i G_i)` -/
theorem sum_encrypted (d : G1) (r : F) : ∀ (s t m : List F) (rest : List G1),
    t.length = s.length → m.length = s.length → s.length ≤ rest.length →
    (List.zipWith (fun a c => a • c) t (List.zipWith (· + ·) ((s.map (· • d)).map (r • ·))
        (List.zipWith (· • ·) m rest))).sum =
      r • ((List.zipWith (· * ·) s t).sum • d) +
        (List.zipWith (· • ·) m (List.zipWith (· • ·) t rest)).sum
  | [], [], [], rest, _, _, _ => by simp
  | s :: ss, t :: ts, m :: ms, g :: rest, h1, h2, h3 => by
    have := sum_encrypted d r ss ts ms rest (by simpa using h1) (by simpa using h2) (by simpa using h3)
    simp only [List.map_cons, List.zipWith_cons_cons, List.sum_cons, this]
    module

theorem groth16Generate_fields (P : Pairing F G1 G2 GT) (D : EvalDomain F) (cs : R1CS F)
    (T : Groth16Trapdoor F G1 G2) (chunks : Nat) (pk : Groth16PK F G1 G2) (vk : Groth16VK G1 G2 GT)
    (h : groth16Generate P D cs T chunks = some (pk, vk)) :
    pk.deltaG1 = T.delta • T.g1 ∧ vk.gammaG2 = T.gamma • T.g2 ∧ vk.deltaG2 = T.delta • T.g2 := by
  simp only [groth16Generate, Option.bind_eq_bind, Option.bind_eq_some_iff, Option.pure_def,
    Option.some.injEq, Prod.mk.injEq] at h
  obtain ⟨_, _, _, _, _, _, _, _, _, _, _, _, rfl, rfl⟩ := h
  exact ⟨rfl, rfl, rfl⟩

/-- an encryption decrypts to the plaintext -/
theorem saver_decrypts (P : Pairing F G1 G2 GT) (vk : Groth16ExtVK G1 G2 GT) (σ : SaverSecret F)
    (m : List F) (hs : σ.s.length = m.length) (hm : m.length ≤ vk.gammaABC.rest.length) (r : F) :
    SaverDecrypts vk σ (r • vk.deltaG1) (List.zipWith (· + ·)
      ((σ.s.map (· • vk.deltaG1)).map (r • ·)) (List.zipWith (· • ·) m vk.gammaABC.rest)) m := by
  rw [SaverDecrypts]
  obtain ⟨s, t0, t⟩ := σ
  simp only at hs ⊢
  generalize vk.gammaABC.rest = rest at hm
  generalize vk.deltaG1 = d
  induction s generalizing m rest with
  | nil =>
    cases m with
    | nil => simp
    | cons _ _ => simp at hs
  | cons a s ih =>
    match m, rest, hs, hm with
    | b :: m, g :: rest, hs, hm =>
      have := ih m (by simpa using hs) rest (by simpa using hm)
      simp only [List.map_cons, List.zipWith_cons_cons, this, List.cons.injEq, and_true]
      module

theorem guard_eq_some' {p : Prop} [Decidable p] {u : Unit} : (guard p : Option Unit) = some u ↔ p := by
  by_cases h : p <;> simp [guard, h]

theorem zipWith_smul_set : ∀ (t : List F) (c : List G1) (i : Nat) (x : G1) (hi : i < c.length),
    i < t.length → (List.zipWith (fun a c => a • c) t (c.set i x)).sum =
      (List.zipWith (fun a c => a • c) t c).sum + t.getD i 0 • (x - c[i])
  | a :: t, c :: cs, 0, x, _, _ => by
    simp only [List.set_cons_zero, List.zipWith_cons_cons, List.sum_cons, List.getD_cons_zero,
      List.getElem_cons_zero]
    module
  | a :: t, c :: cs, i + 1, x, hi, hj => by
    have := zipWith_smul_set t cs i x (by simpa using hi) (by simpa using hj)
    simp only [List.set_cons_succ, List.zipWith_cons_cons, List.sum_cons, List.getD_cons_succ,
      List.getElem_cons_succ, this]
    module

end Crypto3Zk
