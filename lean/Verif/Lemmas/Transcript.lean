import Verif.Model.Transcript
import Mathlib.Data.List.Induction
import Mathlib.Tactic.Ring
import Mathlib.Tactic.NormNum
import Mathlib.Tactic.Positivity

/-!
# Lemmas about transcripts
-/

set_option linter.unusedSectionVars false

namespace Crypto3Zk

variable {F : Type} [Field F]

theorem packBE_append (a b : Bytes) : packBE (a ++ b) = packBE a * 256 ^ b.length + packBE b := by
  induction b using List.reverseRecOn with
  | nil => simp [packBE]
  | append_singleton b x ih =>
    have : ∀ l : Bytes, packBE (l ++ [x]) = packBE l * 256 + x.toNat := by
      intro l; simp [packBE]
    rw [← List.append_assoc, this, this, ih, List.length_append, List.length_singleton, pow_succ]
    ring

theorem packBE_lt (a : Bytes) : packBE a < 256 ^ a.length := by
  induction a using List.reverseRecOn with
  | nil => simp [packBE]
  | append_singleton b x ih =>
    rw [packBE_append, List.length_append, List.length_singleton, pow_succ]
    have : packBE [x] = x.toNat := by simp [packBE]
    have h2 := x.toNat_lt
    rw [this]
    omega

theorem packBE_injective (a b : Bytes) (hl : a.length = b.length) (h : packBE a = packBE b) :
    a = b := by
  induction a using List.reverseRecOn generalizing b with
  | nil => simp at hl; exact (List.eq_nil_of_length_eq_zero hl.symm).symm
  | append_singleton a x ih =>
    rcases List.eq_nil_or_concat b with rfl | ⟨b, y, rfl⟩
    · simp at hl
    · rw [List.concat_eq_append] at *
      rw [packBE_append, packBE_append] at h
      have e1 : packBE [x] = x.toNat := by simp [packBE]
      have e2 : packBE [y] = y.toNat := by simp [packBE]
      have h1 := x.toNat_lt
      have h2 := y.toNat_lt
      rw [e1, e2] at h
      simp only [List.length_singleton, pow_one] at h
      have h3 : packBE a = packBE b := by omega
      have h4 : x.toNat = y.toNat := by omega
      rw [ih b (by simpa using hl) h3, UInt8.toNat_inj.1 h4]

theorem packBE_surjective (n : Nat) : ∀ v < 256 ^ n, ∃ a : Bytes, a.length = n ∧ packBE a = v := by
  induction n with
  | zero => intro v hv; exact ⟨[], rfl, by simp [packBE] at *; omega⟩
  | succ n ih =>
    intro v hv
    obtain ⟨a, ha, hp⟩ := ih (v / 256) (by rw [Nat.div_lt_iff_lt_mul (by norm_num)]; rwa [pow_succ] at hv)
    refine ⟨a ++ [UInt8.ofNat (v % 256)], by simp [ha], ?_⟩
    rw [packBE_append, hp]
    have : packBE [UInt8.ofNat (v % 256)] = v % 256 := by
      simp [packBE, UInt8.toNat_ofNat']
    rw [this, List.length_singleton, pow_one]
    omega

theorem run_append (H : Bytes → Bytes) (t : SeqTranscript) (a b : List TranscriptOp) :
    t.run (F := F) H (a ++ b) =
      (((t.run (F := F) H a).1.run (F := F) H b).1,
        (t.run (F := F) H a).2 ++ ((t.run (F := F) H a).1.run (F := F) H b).2) := by
  induction a generalizing t with
  | nil => simp [SeqTranscript.run]
  | cons op a ih =>
    simp only [List.cons_append, SeqTranscript.run]
    rw [ih]
    simp

/-- What a call adds to the hashed string: an absorbed message, or nothing for a challenge. -/
def TranscriptOp.message : TranscriptOp → Bytes
  | .absorb r => r
  | .challenge => []
  | .intChallenge _ => []

theorem step_state (H : Bytes → Bytes) (t : SeqTranscript) (op : TranscriptOp) :
    (t.step (F := F) H op).1.state = H (t.state ++ op.message) := by
  cases op <;> simp [SeqTranscript.step, SeqTranscript.absorb, SeqTranscript.challenge,
    SeqTranscript.intChallenge, TranscriptOp.message]

end Crypto3Zk
