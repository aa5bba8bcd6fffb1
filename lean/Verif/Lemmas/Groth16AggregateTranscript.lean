import Verif.Spec.Groth16Aggregate

/-!
# The transcript of the aggregation determines what was absorbed
-/

set_option linter.unusedSectionVars false

namespace Crypto3Zk

variable {F : Type} [Field F] {G1 G2 GT : Type} [AddCommGroup G1] [Module F G1] [AddCommGroup G2]
  [Module F G2] [AddCommGroup GT] [Module F GT]

/-- what one round adds to the transcript -/
def AggHash.roundBytes (H : AggHash F G1 G2 GT) (m : GipaRound G1 GT) : List UInt8 :=
  H.writeRound [] m

theorem writeRound_eq (H : AggHash F G1 G2 GT) (tr : List UInt8) (m : GipaRound G1 GT) :
    H.writeRound tr m = tr ++ H.roundBytes m := by
  simp [AggHash.roundBytes, AggHash.writeRound]

theorem roundBytes_length {H : AggHash F G1 G2 GT} (hE : H.Encodes) (m m' : GipaRound G1 GT) :
    (H.roundBytes m).length = (H.roundBytes m').length := by
  obtain ⟨n1, h1⟩ := hE.lenG1
  obtain ⟨nT, hT, -⟩ := hE.lenGT
  simp [AggHash.roundBytes, AggHash.writeRound, h1, hT]

theorem roundBytes_pos {H : AggHash F G1 G2 GT} (hE : H.Encodes) (m : GipaRound G1 GT) :
    0 < (H.roundBytes m).length := by
  obtain ⟨nT, hT, h0⟩ := hE.lenGT
  simp only [AggHash.roundBytes, AggHash.writeRound, List.length_append, hT]
  omega

theorem append_cancel {α : Type} {a b c d : List α} (h : a ++ b = c ++ d) (hl : a.length = c.length) :
    a = c ∧ b = d := List.append_inj h hl

theorem roundBytes_injective {H : AggHash F G1 G2 GT} (hE : H.Encodes) :
    Function.Injective H.roundBytes := by
  intro m m' h
  obtain ⟨n1, h1⟩ := hE.lenG1
  obtain ⟨nT, hT, -⟩ := hE.lenGT
  simp only [AggHash.roundBytes, AggHash.writeRound, List.nil_append, List.append_assoc] at h
  obtain ⟨a1, h⟩ := append_cancel h (by simp [hT])
  obtain ⟨a2, h⟩ := append_cancel h (by simp [hT])
  obtain ⟨a3, h⟩ := append_cancel h (by simp [h1])
  obtain ⟨a4, h⟩ := append_cancel h (by simp [h1])
  obtain ⟨a5, h⟩ := append_cancel h (by simp [hT])
  obtain ⟨a6, h⟩ := append_cancel h (by simp [hT])
  obtain ⟨a7, h⟩ := append_cancel h (by simp [hT])
  obtain ⟨a8, h⟩ := append_cancel h (by simp [hT])
  obtain ⟨a9, h⟩ := append_cancel h (by simp [hT])
  obtain ⟨a10, h⟩ := append_cancel h (by simp [hT])
  obtain ⟨a11, a12⟩ := append_cancel h (by simp [hT])
  rcases m with ⟨⟨_, _⟩, ⟨_, _⟩, ⟨_, _⟩, ⟨_, _⟩, _, _, _, _⟩
  rcases m' with ⟨⟨_, _⟩, ⟨_, _⟩, ⟨_, _⟩, ⟨_, _⟩, _, _, _, _⟩
  simp only [hE.injGT.eq_iff, hE.injG1.eq_iff] at *
  simp_all

theorem blocks_injective {α β : Type} {f : α → List β} (hf : Function.Injective f)
    (hl : ∀ x y, (f x).length = (f y).length) (h0 : ∀ x, 0 < (f x).length) :
    ∀ {xs ys : List α}, xs.flatMap f = ys.flatMap f → xs = ys
  | [], [], _ => rfl
  | [], y :: ys, h => by
      have h1 := congrArg List.length h
      have h2 := h0 y
      simp only [List.flatMap_cons, List.flatMap_nil, List.length_append, List.length_nil] at h1
      omega
  | x :: xs, [], h => by
      have h1 := congrArg List.length h
      have h2 := h0 x
      simp only [List.flatMap_cons, List.flatMap_nil, List.length_append, List.length_nil] at h1
      omega
  | x :: xs, y :: ys, h => by
      simp only [List.flatMap_cons] at h
      obtain ⟨h1, h2⟩ := append_cancel h (hl x y)
      rw [hf h1, blocks_injective hf hl h0 h2]

theorem gipaChallenges_bytes [DecidableEq F] (H : AggHash F G1 G2 GT) :
    ∀ (ms : List (GipaRound G1 GT)) (tr tr' : List UInt8) (xs : List F),
      gipaChallenges H tr ms = some (xs, tr') → tr' = tr ++ ms.flatMap H.roundBytes
  | [], tr, tr', xs, h => by
      simp only [gipaChallenges, Option.some.injEq, Prod.mk.injEq] at h
      simp [h.2]
  | m :: ms, tr, tr', xs, h => by
      simp only [gipaChallenges, Option.bind_eq_bind, Option.bind_eq_some_iff] at h
      obtain ⟨c, -, ⟨ys, t⟩, h2, h3⟩ := h
      simp only [Option.some.injEq, Prod.mk.injEq] at h3
      have := gipaChallenges_bytes H ms _ _ _ h2
      rw [← h3.2, this, writeRound_eq]
      simp

/-- the part of the transcript up to the rounds -/
theorem writeStart_cancel {H : AggHash F G1 G2 GT} (hE : H.Encodes) {ab c ab' c' : GT × GT}
    {incl incl' s s' : List UInt8} (hi : incl.length < 2 ^ 64) (hi' : incl'.length < 2 ^ 64)
    (h : H.writeStart ab c incl ++ s = H.writeStart ab' c' incl' ++ s') :
    ab = ab' ∧ c = c' ∧ incl = incl' ∧ s = s' := by
  obtain ⟨nT, hT, -⟩ := hE.lenGT
  obtain ⟨nL, hL⟩ := hE.lenLen
  simp only [AggHash.writeStart, AggHash.writeBytes, List.append_assoc] at h
  have h := List.append_cancel_left (List.append_cancel_left h)
  obtain ⟨a1, h⟩ := append_cancel h (by simp [hT])
  obtain ⟨a2, h⟩ := append_cancel h (by simp [hT])
  obtain ⟨a3, h⟩ := append_cancel h (by simp [hT])
  obtain ⟨a4, h⟩ := append_cancel h (by simp [hT])
  obtain ⟨a5, h⟩ := append_cancel h (by rw [hL _ hi, hL _ hi'])
  obtain ⟨a6, h⟩ := append_cancel h (hE.injLen _ _ hi hi' a5)
  exact ⟨Prod.ext (hE.injGT a1) (hE.injGT a2), Prod.ext (hE.injGT a3) (hE.injGT a4), a6, h⟩

theorem writeFinal_cancel {H : AggHash F G1 G2 GT} (hE : H.Encodes) {t t' : List UInt8} {c c' : F}
    {v v' : G2 × G2} {w w' : G1 × G1} (h : H.writeFinal t c v w = H.writeFinal t' c' v' w') :
    t = t' ∧ c = c' ∧ v = v' ∧ w = w' := by
  obtain ⟨n1, h1⟩ := hE.lenG1
  obtain ⟨n2, h2⟩ := hE.lenG2
  obtain ⟨nF, hF⟩ := hE.lenF
  simp only [AggHash.writeFinal, List.append_assoc] at h
  have hlen : t.length = t'.length := by
    have := congrArg List.length h
    simp only [List.length_append, h1, h2, hF] at this
    omega
  obtain ⟨a0, h⟩ := append_cancel h hlen
  have h := List.append_cancel_left h
  obtain ⟨a1, h⟩ := append_cancel h (by simp [hF])
  obtain ⟨a2, h⟩ := append_cancel h (by simp [h2])
  obtain ⟨a3, h⟩ := append_cancel h (by simp [h2])
  obtain ⟨a4, a5⟩ := append_cancel h (by simp [h1])
  exact ⟨a0, hE.injF a1, Prod.ext (hE.injG2 a2) (hE.injG2 a3), Prod.ext (hE.injG1 a4) (hE.injG1 a5)⟩

end Crypto3Zk
