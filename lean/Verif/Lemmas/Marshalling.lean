import Verif.Spec.Marshalling
import Verif.Spec.LinearCombination
import Mathlib.Tactic.Ring
import Mathlib.Tactic.NormNum
import Mathlib.Data.Nat.Log

/-!
# Serialisation: what is written, and reading it back
-/

set_option linter.unusedSectionVars false

namespace Crypto3Zk

variable {F G1 G2 GT : Type}

/-! ## Numbers as bytes -/

theorem leBytes_length : ∀ k n, (leBytes k n).length = k
  | 0, _ => rfl
  | k + 1, n => by simp [leBytes, leBytes_length k]

theorem sizeFormat_length (n : Nat) : (sizeFormat n).length = 4 := by
  simp [sizeFormat, leBytes_length]

theorem packSize_eq (n : Nat) : packSize n = sizeFormat n := by
  simp only [packSize, sizeFormat, leBytes, List.reverse_cons, List.reverse_nil, List.nil_append,
    List.cons_append]
  have h1 : n / 256 / 256 / 256 = n / 2 ^ 24 := by omega
  have h2 : n / 256 / 256 = n / 2 ^ 16 := by omega
  have h3 : n / 256 = n / 2 ^ 8 := by omega
  rw [h1, h2, h3]

theorem unpackSize_eq (n : Nat) (h : n < 2 ^ 32) : unpackSize (sizeFormat n) = n := by
  rw [← packSize_eq]
  simp only [unpackSize, packSize, List.foldl_cons, List.foldl_nil, UInt8.toNat_ofNat']
  omega

theorem leBytes_zero : ∀ k, leBytes k 0 = List.replicate k 0
  | 0 => rfl
  | k + 1 => by simp [leBytes, leBytes_zero k, List.replicate_succ]

theorem range_bytes : ∀ (k n : Nat),
    (List.range k).map (fun i => UInt8.ofNat (n / 256 ^ i % 256)) = leBytes k n
  | 0, n => rfl
  | k + 1, n => by
    rw [List.range_succ_eq_map, List.map_cons, List.map_map, leBytes, ← range_bytes k (n / 256)]
    simp only [pow_zero, Nat.div_one, List.cons.injEq, true_and]
    refine List.map_congr_left fun i _ => ?_
    simp only [Function.comp_apply, Nat.succ_eq_add_one]
    rw [Nat.div_div_eq_div_mul, pow_succ, mul_comm]

theorem leBytes_append : ∀ (j k n : Nat), n < 256 ^ j →
    leBytes j n ++ List.replicate k 0 = leBytes (j + k) n
  | 0, k, n, h => by
    have : n = 0 := by simpa using h
    subst this
    simp [leBytes, leBytes_zero]
  | j + 1, k, n, h => by
    rw [show j + 1 + k = (j + k) + 1 by omega, leBytes, leBytes, List.cons_append,
      leBytes_append j k (n / 256)]
    rw [pow_succ] at h
    exact Nat.div_lt_of_lt_mul (by rw [mul_comm]; exact h)

/-- the exported bytes, padded with zeros to the width of the field -/
theorem exportBytes_pad (n k : Nat) (hk : 0 < k) (h : n < 256 ^ k) :
    (exportBytes n).length ≤ k ∧
      exportBytes n ++ List.replicate (k - (exportBytes n).length) 0 = leBytes k n := by
  have hl : (exportBytes n).length = n.log2 / 8 + 1 := by simp [exportBytes]
  have h1 : n < 256 ^ (n.log2 / 8 + 1) := by
    have := Nat.lt_log2_self (n := n)
    refine this.trans_le ?_
    rw [show 256 = 2 ^ 8 by norm_num, ← pow_mul]
    exact Nat.pow_le_pow_right (by norm_num) (by omega)
  have h2 : n.log2 / 8 + 1 ≤ k := by
    by_cases h0 : n = 0
    · subst h0; simp; omega
    · have : n.log2 < 8 * k := by
        rw [Nat.log2_lt h0, pow_mul]
        exact h
      omega
  refine ⟨by rw [hl]; exact h2, ?_⟩
  rw [hl, exportBytes, range_bytes, leBytes_append _ _ _ h1]
  congr 1
  omega

/-! ## The serialiser -/

/-- the output vector holds `out`, the write iterator stands behind it, and `n` bytes that are still
zero follow -/
def MWriter.Has (w : MWriter) (out : List UInt8) (n : Nat) : Prop :=
  w.buf = out ++ List.replicate n 0 ∧ w.pos = out.length

/-- running `f` appends `bs`, if there is room -/
def Encodes (f : MWriter → Option MWriter) (bs : List UInt8) : Prop :=
  ∀ w out n, w.Has out n → bs.length ≤ n → ∃ w', f w = some w' ∧ w'.Has (out ++ bs) (n - bs.length)

theorem encodes_put (bs : List UInt8) (adv : Nat) (h : bs.length ≤ adv) :
    Encodes (fun w => w.put bs adv) (bs ++ List.replicate (adv - bs.length) 0) := by
  rintro ⟨buf, pos⟩ out n ⟨rfl, rfl⟩ hn
  simp only [List.length_append, List.length_replicate] at hn
  refine ⟨_, if_pos ⟨by simp only [List.length_append, List.length_replicate]; omega,
    by simp only [List.length_append, List.length_replicate]; omega⟩, ?_, ?_⟩
  · simp only [List.length_append, List.length_replicate]
    rw [List.take_left', List.drop_append, List.drop_eq_nil_of_le (by omega), List.nil_append,
      List.drop_replicate, List.append_assoc, List.append_assoc, List.append_assoc,
      List.append_right_inj, List.append_right_inj, ← List.replicate_add]
    · congr 1; omega
    · rfl
  · simp only [List.length_append, List.length_replicate]
    omega

theorem encodes_bind {f g : MWriter → Option MWriter} {a b : List UInt8} (hf : Encodes f a)
    (hg : Encodes g b) : Encodes (fun w => f w >>= g) (a ++ b) := by
  intro w out n hw hn
  rw [List.length_append] at hn
  obtain ⟨w1, h1, hw1⟩ := hf w out n hw (by omega)
  obtain ⟨w2, h2, hw2⟩ := hg w1 _ _ hw1 (by omega)
  refine ⟨w2, by simp [h1, h2], ?_⟩
  rw [List.length_append, ← List.append_assoc, ← Nat.sub_sub]
  exact hw2

theorem encodes_fold {α : Type} (f : α → MWriter → Option MWriter) (g : α → List UInt8) :
    ∀ l : List α, (∀ x ∈ l, Encodes (f x) (g x)) →
      Encodes (fun w => l.foldlM (fun w x => f x w) w) (l.flatMap g)
  | [], _ => by
    intro w out n hw _
    exact ⟨w, rfl, by simpa using hw⟩
  | x :: l, h => by
    have := encodes_bind (h x (by simp)) (encodes_fold f g l fun y hy => h y (by simp [hy]))
    simpa [List.foldlM_cons, List.flatMap_cons] using this

theorem encodes_point (bs : List UInt8) : Encodes (putPoint bs) bs := by
  have := encodes_put bs bs.length le_rfl
  rw [Nat.sub_self, List.replicate_zero, List.append_nil] at this
  exact this

theorem encodes_size (n : Nat) : Encodes (putSize n) (sizeFormat n) := by
  have := encodes_put (packSize n) sizeBytes (by simp [packSize, sizeBytes])
  rw [show sizeBytes - (packSize n).length = 0 from rfl, List.replicate_zero, List.append_nil,
    packSize_eq] at this
  rw [show putSize n = fun w => w.put (packSize n) sizeBytes from rfl, packSize_eq]
  exact this

theorem encodes_field (n k : Nat) (hk : 0 < k) (h : n < 256 ^ k) :
    Encodes (putField n k) (leBytes k n) := by
  obtain ⟨h1, h2⟩ := exportBytes_pad n k hk h
  rw [← h2]
  exact encodes_put _ _ h1

theorem encodes_gt (ns : List Nat) (h : ∀ n ∈ ns, n < 256 ^ 48) :
    Encodes (putGT ns) (ns.flatMap (leBytes 48)) :=
  encodes_fold (fun n w => putField n fpBytes w) (leBytes 48) ns fun n hn =>
    encodes_field n 48 (by norm_num) (h n hn)

theorem encodes_sparse (K : MarshalCodec F G1 G2 GT) (v : KcVec G1) :
    Encodes (putSparse K v) (sparseFormat K.point1 v) := by
  have h1 := encodes_fold (fun (e : Nat × G1) w => putSize e.1 w) (fun e => sizeFormat e.1) v.entries
    fun e _ => encodes_size e.1
  have h2 := encodes_fold (fun (e : Nat × G1) w => putPoint (K.point1 e.2) w) (fun e => K.point1 e.2)
    v.entries fun e _ => encodes_point _
  have := encodes_bind (encodes_size v.entries.length) (encodes_bind h1 (encodes_bind h2
    (encodes_size v.domainSize)))
  simp only [sparseFormat, List.append_assoc] at this ⊢
  exact this

theorem encodes_term (K : MarshalCodec F G1 G2 GT) (hK : K.Lawful) (t : LinearTerm F) :
    Encodes (putTerm K t) (sizeFormat t.index ++ leBytes 32 (K.frNat t.coeff)) :=
  encodes_bind (encodes_size _) (encodes_field _ _ (by decide) (hK.fr_lt _))

theorem encodes_comb (K : MarshalCodec F G1 G2 GT) (hK : K.Lawful) (lc : LinComb F) :
    Encodes (putComb K lc) (combFormat K lc) :=
  encodes_bind (encodes_size _) (encodes_fold (fun t w => putTerm K t w) _ lc fun t _ =>
    encodes_term K hK t)

theorem flatMap_length_const {α β : Type} (f : α → List β) (k : Nat) :
    ∀ l : List α, (∀ x ∈ l, (f x).length = k) → (l.flatMap f).length = l.length * k
  | [], _ => by simp
  | x :: l, h => by
    rw [List.flatMap_cons, List.length_append, flatMap_length_const f k l fun y hy => h y (by simp [hy]),
      h x (by simp), List.length_cons]
    ring

theorem combFormat_length (K : MarshalCodec F G1 G2 GT) (lc : LinComb F) :
    (combFormat K lc).length = lc.length * 36 + 4 := by
  rw [combFormat, List.length_append, sizeFormat_length, flatMap_length_const _ 36, add_comm]
  intro t _
  simp [sizeFormat_length, leBytes_length]

theorem constraintBody_length (K : MarshalCodec F G1 G2 GT) (k : R1CSConstraint F) :
    (constraintBody K k).length = constraintBytes k := by
  simp only [constraintBody, List.length_append, combFormat_length, constraintBytes, sizeBytes, frBytes]
  ring

theorem encodes_constraint (K : MarshalCodec F G1 G2 GT) (hK : K.Lawful) (k : R1CSConstraint F) :
    Encodes (putConstraint K k) (sizeFormat (constraintBody K k).length ++ constraintBody K k) := by
  have := encodes_bind (encodes_size (constraintBytes k)) (encodes_bind (encodes_comb K hK k.a)
    (encodes_bind (encodes_comb K hK k.b) (encodes_comb K hK k.c)))
  rw [constraintBody_length]
  simp only [constraintBody, List.append_assoc] at this ⊢
  exact this

theorem encodes_system (K : MarshalCodec F G1 G2 GT) (hK : K.Lawful) (cs : R1CS F) :
    Encodes (putSystem K cs) (systemFormat K cs) := by
  have := encodes_bind (encodes_size cs.primaryInputSize) (encodes_bind
    (encodes_size cs.auxiliaryInputSize) (encodes_bind (encodes_size cs.constraints.length)
    (encodes_fold (fun k w => putConstraint K k w) _ cs.constraints fun k _ =>
      encodes_constraint K hK k)))
  simp only [systemFormat, List.append_assoc] at this ⊢
  exact this

theorem kcFormat_length (K : MarshalCodec F G1 G2 GT) (hK : K.Lawful) (v : KcVec (G2 × G1)) :
    (kcFormat K v).length = kcVecBytes v := by
  simp only [kcFormat, sparseFormat, List.length_append, sizeFormat_length]
  rw [flatMap_length_const _ 4 _ fun e _ => sizeFormat_length _, flatMap_length_const _ 144]
  · simp only [kcVecBytes, sizeBytes, g2Bytes, g1Bytes]
    ring
  · intro e _
    simp [hK.point1_length, hK.point2_length]

theorem encodes_kcVec (K : MarshalCodec F G1 G2 GT) (hK : K.Lawful) (v : KcVec (G2 × G1)) :
    Encodes (putKcVec K v) (sizeFormat (kcFormat K v).length ++ kcFormat K v) := by
  have h1 := encodes_fold (fun (e : Nat × (G2 × G1)) w => putSize e.1 w) (fun e => sizeFormat e.1)
    v.entries fun e _ => encodes_size e.1
  have h2 := encodes_fold (fun (e : Nat × (G2 × G1)) w => putKc K e.2 w)
    (fun e => K.point2 e.2.1 ++ K.point1 e.2.2) v.entries
    fun e _ => encodes_bind (encodes_point _) (encodes_point _)
  have := encodes_bind (encodes_size (kcVecBytes v)) (encodes_bind (encodes_size v.entries.length)
    (encodes_bind h1 (encodes_bind h2 (encodes_size v.domainSize))))
  rw [kcFormat_length K hK]
  simp only [kcFormat, sparseFormat, List.append_assoc] at this ⊢
  exact this

theorem encodes_points (K : MarshalCodec F G1 G2 GT) (l : List G1) :
    Encodes (putPoints K l) (pointsFormat K l) :=
  encodes_bind (encodes_size _) (encodes_fold (fun g w => putPoint (K.point1 g) w) _ l fun _ _ =>
    encodes_point _)

/-- a run of the serialiser on a fresh output vector -/
theorem encodes_run {f : MWriter → Option MWriter} {bs : List UInt8} (hf : Encodes f bs) (size : Nat)
    (h : bs.length ≤ size) :
    (f ⟨List.replicate size 0, 0⟩ >>= fun w => pure w.buf) =
      some (bs ++ List.replicate (size - bs.length) 0) := by
  obtain ⟨w, hw, hb, -⟩ := hf ⟨List.replicate size 0, 0⟩ [] size ⟨by simp, rfl⟩ h
  rw [hw]
  simp [hb]

end Crypto3Zk
