import Verif.Props.TauCeremony
import Verif.Props.Groth16MPC

/-!
# C56: both phases of the ceremony, with contributors who publish anything
-/

set_option linter.unusedSectionVars false

namespace Crypto3Zk

variable {F G1 G2 GT : Type} [Field F] [AddCommGroup G1] [Module F G1] [AddCommGroup G2] [Module F G2]
  [AddCommGroup GT] [Module F GT]
variable [DecidableEq F] [DecidableEq G1] [DecidableEq G2] [DecidableEq GT]

/-- The vectors of an accumulator are as long as they should be. -/
structure TauLengths (len : Nat) (acc : TauAccumulator G1 G2) : Prop where
  tauG1 : acc.tauG1.length = 2 * len - 1
  tauG2 : acc.tauG2.length = len
  alpha : acc.alphaTauG1.length = len
  beta : acc.betaTauG1.length = len

/-- Entries and lengths determine an accumulator. -/
theorem TauWellFormed.eq_structure {P : Pairing F G1 G2 GT} {acc : TauAccumulator G1 G2} {k : TauKey F} {len : Nat}
    (h : TauWellFormed P acc k) (hl : TauLengths len acc) : acc = tauStructure P len k := by
  have ext : ∀ {G : Type} (l : List G) (n : Nat) (f : Nat → G), l.length = n →
      (∀ (i : Nat) (g : G), l[i]? = some g → g = f i) → l = (List.range n).map f := by
    intro G l n f hn hf
    apply List.ext_getElem (by simp [hn])
    intro i h1 h2
    simp only [List.getElem_map, List.getElem_range]
    exact hf i _ (List.getElem?_eq_getElem h1)
  obtain ⟨l1, l2, l3, l4, b⟩ := acc
  simp only [tauStructure, TauAccumulator.mk.injEq]
  exact ⟨ext _ _ _ hl.tauG1 h.tauG1, ext _ _ _ hl.tauG2 h.tauG2, ext _ _ _ hl.alpha h.alphaTauG1,
    ext _ _ _ hl.beta h.betaTauG1, h.betaG2⟩

/-- **C56** (both phases). After a first phase in which everybody publishes what they like, of which all contributions
are accepted with random choices that are not among the few bad ones, with no zero for `β`, with a last accumulator of
the right lengths and with a `τ` outside the domain (which is seen from the first entry of `h`), an accepted key pair of
the second phase is the generator's key pair for the products of the factors of the first phase, `γ = 1`, and the
product of the factors of the second phase; or the second phase is accepted for at most one in `|F|` of the random
choices. Contributors of the first phase who were honest have contributed their own secrets. Missing from the full
property: what `C55_sound_partial` and `C56_sound_partial` lack. -/
theorem C56_both_phases_partial [Fintype F] (sort : List (LinearTerm F) → List (LinearTerm F))
    {P : Pairing F G1 G2 GT} (hP : P.Cyclic) (K : PokLib G2) (hK : ∀ b, K.random b ≠ 0)
    (transcript : TauAccumulator G1 G2 → List UInt8) (M : MpcTranscript F G1 G2) {D : TauDomain F G1 G2}
    (hD : D.Lawful) (hm2 : 2 ≤ D.dom.m) (len : Nat) (hlen : D.dom.m ≤ len) :
    ∃ bad : TauPublicKey G1 G2 → TauAccumulator G1 G2 → (after : TauAccumulator G1 G2) → Finset (TauRandom F after),
      (∀ pk before after, (bad pk before after).card * Fintype.card F ≤ Fintype.card (TauRandom F after)) ∧
      ∀ (steps : List (TauStep F G1 G2)) (res : TauResult G1 G2),
        (∀ (i : Nat) (before : TauAccumulator G1 G2) (s : TauStep F G1 G2),
          (tauBefores (TauAccumulator.new P len) steps)[i]? = some before → steps[i]? = some s →
          tauVerify P K transcript s.pk before s.after s.random.draws = some true ∧
          s.random ∉ bad s.pk before s.after ∧ s.after.betaG2 ≠ 0) →
        TauLengths len (tauFinal (TauAccumulator.new P len) steps) →
        TauResult.fromAccumulator D len D.dom.m (tauFinal (TauAccumulator.new P len) steps) = some res →
        res.h[0]? ≠ some 0 →
        ∃ keys : List (TauKey F), keys.length = steps.length ∧
          (∀ (i : Nat) (before : TauAccumulator G1 G2) (s : TauStep F G1 G2) (x : TauKey F),
            (tauBefores (TauAccumulator.new P len) steps)[i]? = some before → steps[i]? = some s →
            keys[i]? = some x → TauPokFor K transcript before s.pk x ∧
            ∀ key g, tauProve K transcript key before g = some s.pk → x = key) ∧
          ∀ (cs : R1CS F) (kp : Groth16PK F G1 G2 × Groth16VK G1 G2 GT) (pks : List (MpcPublicKey G1 G2))
            (chunks : Nat), cs.WellRanged → cs.numConstraints + cs.numInputs + 1 ≤ D.dom.m →
            (∃ (ds : List F) (pk : Groth16PK F G1 G2) (vk : Groth16VK G1 G2 GT), ds.prod ≠ 0 ∧
              FactorChain K M kp.1.cs none P.one1 pks ds (ds.prod • P.one1) ∧
              groth16Generate P D.dom cs ⟨(keys.map TauKey.tau).prod, (keys.map TauKey.alpha).prod,
                (keys.map TauKey.beta).prod, 1, ds.prod, P.one1, P.one2⟩ chunks = some (pk, vk) ∧
              pk.cs.beq sort kp.1.cs = true ∧ SameProvingKey { kp.1 with cs := pk.cs } pk ∧ kp.2 = vk) ∨
            (Finset.univ.filter fun r : (Fin (D.dom.m - 1) → F) × (Fin cs.auxiliaryInputSize → F) =>
              mpcVerify sort P K M D.dom kp pks cs res (List.ofFn r.1) (List.ofFn r.2) =
                some true).card * Fintype.card F ≤
                Fintype.card ((Fin (D.dom.m - 1) → F) × (Fin cs.auxiliaryInputSize → F)) := by
  obtain ⟨bad, hbad, h⟩ := C55_ceremony_partial (F := F) hP K hK transcript
  refine ⟨bad, hbad, fun steps res hall hl hres hh => ?_⟩
  obtain ⟨keys, hkl, hw, hp⟩ := h len steps hall
  rw [hw.eq_structure hl, C55_result P hD len D.dom.m le_rfl hlen (by omega), Option.some_inj] at hres
  subst hres
  refine ⟨keys, hkl, hp, fun cs kp pks chunks hr hm => ?_⟩
  refine C56_sound_generator_partial sort hP K hK M hD.dom kp pks cs hr hm hm2 (keyProduct keys) ?_ chunks
  intro h0
  apply hh
  simp only [tauResultOf]
  rw [List.getElem?_map, List.getElem?_range (by omega)]
  simp [h0]

/-- A ceremony of two honest contributors, whose factors are `14`, `16` and `14` altogether, is one of these. -/
example : ∃ bad : TauPublicKey (ZMod 17) (ZMod 17) → TauAccumulator (ZMod 17) (ZMod 17) →
      (after : TauAccumulator (ZMod 17) (ZMod 17)) → Finset (TauRandom (ZMod 17) after),
    (∀ pk before after, (bad pk before after).card * 17 ≤ Fintype.card (TauRandom (ZMod 17) after)) ∧
    ∃ (steps : List (TauStep (ZMod 17) (ZMod 17) (ZMod 17))) (res : TauResult (ZMod 17) (ZMod 17)),
      steps.length = 2 ∧
      (∀ (i : Nat) (before : TauAccumulator (ZMod 17) (ZMod 17)) (s : TauStep (ZMod 17) (ZMod 17) (ZMod 17)),
        (tauBefores (TauAccumulator.new exPairing17 4) steps)[i]? = some before → steps[i]? = some s →
        tauVerify exPairing17 exPokLib exTauTranscript s.pk before s.after s.random.draws = some true ∧
        s.random ∉ bad s.pk before s.after ∧ s.after.betaG2 ≠ 0) ∧
      TauLengths 4 (tauFinal (TauAccumulator.new exPairing17 4) steps) ∧
      TauResult.fromAccumulator (TauDomain.ofDomain (G1 := ZMod 17) (G2 := ZMod 17)
          (EvalDomain.ofPoints 4 (fun i => (4 : ZMod 17) ^ i) 3)) 4 4
        (tauFinal (TauAccumulator.new exPairing17 4) steps) = some res ∧
      res.h[0]? ≠ some 0 := by
  have hD := TauDomain.ofDomain_lawful (G1 := ZMod 17) (G2 := ZMod 17) exDom17
  obtain ⟨bad, hbad, -⟩ := C56_both_phases_partial id exPairing17_cyclic exPokLib exPokLib_ne exTauTranscript
    exMpcTranscript hD (by decide) 4 le_rfl
  refine ⟨bad, fun pk before after => by simpa using hbad pk before after, ?_⟩
  obtain ⟨steps, hl, hf, hs⟩ := C55_honest_ceremony exPairing17_cyclic exPokLib (fun x => by simp [exPokLib])
    exTauTranscript 4 (by norm_num) bad hbad [⟨2, 3, 5⟩, ⟨7, 11, 13⟩] (by decide) (1, 1, 1)
  rw [C55_contributions exPairing17 4 (by norm_num), Option.some_inj] at hf
  refine ⟨steps, tauResultOf exPairing17 (EvalDomain.ofPoints 4 (fun i => (4 : ZMod 17) ^ i) 3) 4
    (keyProduct [⟨2, 3, 5⟩, ⟨7, 11, 13⟩]), hl, fun i before s hb hsi => (hs i before s hb hsi).1, ?_, ?_, ?_⟩
  · rw [← hf]
    constructor <;> simp [tauStructure]
  · rw [← hf]
    exact C55_result exPairing17 hD 4 4 le_rfl le_rfl (by decide) _
  · show ¬ (some _ = some (0 : ZMod 17))
    rw [Option.some_inj]
    show ¬ (((2 * (7 * 1) : ZMod 17) ^ 0 * ∏ i ∈ Finset.range 4, ((2 * (7 * 1) : ZMod 17) - 4 ^ i)) • (1 : ZMod 17) = 0)
    decide +kernel

end Crypto3Zk
