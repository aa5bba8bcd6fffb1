import Verif.Props.PowersOfTau

/-!
# C55: a whole powers-of-tau ceremony

Any number of contributors, each of which publishes an accumulator and a public key of their choice, and a verifier
that checks all of them one after the other.
-/

set_option linter.unusedSectionVars false

namespace Crypto3Zk

variable {F G1 G2 GT : Type} [Field F] [AddCommGroup G1] [Module F G1] [AddCommGroup G2] [Module F G2]
  [AddCommGroup GT] [Module F GT]
variable [DecidableEq F] [DecidableEq G1] [DecidableEq G2] [DecidableEq GT]

/-- What a contributor publishes, and the random choices of the verifier for it. -/
structure TauStep (F G1 G2 : Type) where
  pk : TauPublicKey G1 G2
  after : TauAccumulator G1 G2
  random : TauRandom F after

/-- The accumulators to which the contributors contribute. -/
def tauBefores (start : TauAccumulator G1 G2) (steps : List (TauStep F G1 G2)) : List (TauAccumulator G1 G2) :=
  start :: steps.map TauStep.after

/-- The last accumulator. -/
def tauFinal (start : TauAccumulator G1 G2) (steps : List (TauStep F G1 G2)) : TauAccumulator G1 G2 :=
  (steps.getLast?.map TauStep.after).getD start

/-- The proofs of knowledge of a contribution to `before` are about `x`. -/
def TauPokFor (K : PokLib G2) (transcript : TauAccumulator G1 G2 → List UInt8) (before : TauAccumulator G1 G2)
    (pk : TauPublicKey G1 G2) (x : TauKey F) : Prop :=
  ∃ sτ sα sβ, pokChallenge K pk.tau.g1s pk.tau.g1sx (transcript before) 0 = some sτ ∧
    pokChallenge K pk.alpha.g1s pk.alpha.g1sx (transcript before) 1 = some sα ∧
    pokChallenge K pk.beta.g1s pk.beta.g1sx (transcript before) 2 = some sβ ∧
    PokFor pk.tau sτ x.tau ∧ PokFor pk.alpha sα x.alpha ∧ PokFor pk.beta sβ x.beta

/-- The proofs of knowledge are about one factor only. -/
theorem TauPokFor.unique {K : PokLib G2} (hK : ∀ b, K.random b ≠ 0) {transcript : TauAccumulator G1 G2 → List UInt8}
    {before : TauAccumulator G1 G2} {pk : TauPublicKey G1 G2} {x y : TauKey F}
    (hx : TauPokFor K transcript before pk x) (hy : TauPokFor K transcript before pk y) : x = y := by
  have one : ∀ (u v : G1) (t : List UInt8) (p : UInt8) (g h : G2) (proof : ElementPok G1 G2) (a b : F),
      pokChallenge K u v t p = some g → pokChallenge K u v t p = some h → PokFor proof g a → PokFor proof h b →
      a = b := by
    intro u v t p g h proof a b hg hh ha hb
    obtain rfl := Option.some_inj.1 (hg.symm.trans hh)
    have hne : g ≠ 0 := by
      rw [pokChallenge, Option.map_eq_some_iff] at hg
      obtain ⟨c, -, rfl⟩ := hg
      exact hK c
    have := ha.g2.symm.trans hb.g2
    rw [← sub_eq_zero, ← sub_smul, smul_eq_zero] at this
    exact sub_eq_zero.1 (this.resolve_right hne)
  obtain ⟨s1, s2, s3, c1, c2, c3, p1, p2, p3⟩ := hx
  obtain ⟨s1', s2', s3', c1', c2', c3', p1', p2', p3'⟩ := hy
  cases x
  cases y
  rw [TauKey.mk.injEq]
  exact ⟨one _ _ _ _ _ _ _ _ _ c1 c1' p1 p1', one _ _ _ _ _ _ _ _ _ c2 c2' p2 p2',
    one _ _ _ _ _ _ _ _ _ c3 c3' p3 p3'⟩

/-- The proofs of knowledge of an honest contributor are about their secrets. -/
theorem tauPokFor_honest {K : PokLib G2} {transcript : TauAccumulator G1 G2 → List UInt8}
    {before : TauAccumulator G1 G2} {key : TauKey F} {s : G1 × G1 × G1} {pk : TauPublicKey G1 G2}
    (h : tauProve K transcript key before s = some pk) : TauPokFor K transcript before pk key := by
  simp only [tauProve, pokProve, Option.bind_eq_bind, Option.bind_eq_some_iff, Option.pure_def,
    Option.some.injEq] at h
  obtain ⟨_, ⟨g1, h1, rfl⟩, _, ⟨g2, h2, rfl⟩, _, ⟨g3, h3, rfl⟩, rfl⟩ := h
  exact ⟨g1, g2, g3, h1, h2, h3, ⟨rfl, rfl⟩, ⟨rfl, rfl⟩, ⟨rfl, rfl⟩⟩

/-- **C55** (a whole ceremony). For every contribution, whatever is published, at most one in `|F|` of the random
choices of the verifier is bad. If all contributions of a ceremony are accepted, with choices that are not bad, and no
accumulator has a zero for `β` (anyone can see that), then the last accumulator is, entry by entry, the one of the
products of factors that the proofs of knowledge of the contributors are about. A contributor who was honest has
contributed their own secrets, whatever the others did, before or afterwards. Missing from the full property: what
`C55_sound_partial` lacks. -/
theorem C55_ceremony_partial [Fintype F] {P : Pairing F G1 G2 GT} (hP : P.Cyclic) (K : PokLib G2)
    (hK : ∀ b, K.random b ≠ 0) (transcript : TauAccumulator G1 G2 → List UInt8) :
    ∃ bad : TauPublicKey G1 G2 → TauAccumulator G1 G2 → (after : TauAccumulator G1 G2) → Finset (TauRandom F after),
      (∀ pk before after, (bad pk before after).card * Fintype.card F ≤ Fintype.card (TauRandom F after)) ∧
      ∀ (len : Nat) (steps : List (TauStep F G1 G2)),
        (∀ (i : Nat) (before : TauAccumulator G1 G2) (s : TauStep F G1 G2),
          (tauBefores (TauAccumulator.new P len) steps)[i]? = some before → steps[i]? = some s →
          tauVerify P K transcript s.pk before s.after s.random.draws = some true ∧
          s.random ∉ bad s.pk before s.after ∧ s.after.betaG2 ≠ 0) →
        ∃ xs : List (TauKey F), xs.length = steps.length ∧
          TauWellFormed P (tauFinal (TauAccumulator.new P len) steps) (keyProduct xs) ∧
          ∀ (i : Nat) (before : TauAccumulator G1 G2) (s : TauStep F G1 G2) (x : TauKey F),
            (tauBefores (TauAccumulator.new P len) steps)[i]? = some before → steps[i]? = some s →
            xs[i]? = some x → TauPokFor K transcript before s.pk x ∧
            ∀ key g, tauProve K transcript key before g = some s.pk → x = key := by
  classical
  let acc := fun (pk : TauPublicKey G1 G2) (before after : TauAccumulator G1 G2) =>
    Finset.univ.filter fun r : TauRandom F after => tauVerify P K transcript pk before after r.draws = some true
  refine ⟨fun pk before after => if (acc pk before after).card * Fintype.card F ≤
      Fintype.card (TauRandom F after) then acc pk before after else ∅, ?_, ?_⟩
  · intro pk before after
    dsimp only
    split_ifs with h
    · exact h
    · simp
  intro len steps
  have main : ∀ (steps : List (TauStep F G1 G2)) (start : TauAccumulator G1 G2) (k : TauKey F),
      TauWellFormed P start k → k.beta ≠ 0 →
      (∀ (i : Nat) (before : TauAccumulator G1 G2) (s : TauStep F G1 G2),
        (tauBefores start steps)[i]? = some before → steps[i]? = some s →
        tauVerify P K transcript s.pk before s.after s.random.draws = some true ∧
        s.random ∉ (if (acc s.pk before s.after).card * Fintype.card F ≤
          Fintype.card (TauRandom F s.after) then acc s.pk before s.after else ∅) ∧ s.after.betaG2 ≠ 0) →
      ∃ xs : List (TauKey F), xs.length = steps.length ∧
        TauWellFormed P (tauFinal start steps) ⟨(keyProduct xs).tau * k.tau, (keyProduct xs).alpha * k.alpha,
          (keyProduct xs).beta * k.beta⟩ ∧
        ∀ (i : Nat) (before : TauAccumulator G1 G2) (s : TauStep F G1 G2) (x : TauKey F),
          (tauBefores start steps)[i]? = some before → steps[i]? = some s →
          xs[i]? = some x → TauPokFor K transcript before s.pk x := by
    intro steps
    induction steps with
    | nil =>
      intro start k hwf _ _
      exact ⟨[], rfl, by simpa [keyProduct, tauFinal] using hwf, by simp⟩
    | cons s steps ih =>
      intro start k hwf hβ hall
      obtain ⟨h1, h2, h3⟩ := hall 0 start s rfl rfl
      have hin : s.random ∈ acc s.pk start s.after := Finset.mem_filter.2 ⟨Finset.mem_univ _, h1⟩
      rcases C55_sound_partial hP K hK transcript s.pk start s.after k hwf hβ with ⟨x, hx, hpok⟩ | hfew
      swap
      · rw [if_pos hfew] at h2
        exact absurd hin h2
      have hβ' : x.beta * k.beta ≠ 0 := by
        intro h0
        apply h3
        rw [hx.betaG2]
        simp [h0]
      obtain ⟨xs, hl, hf, hp⟩ := ih s.after _ hx hβ' (fun i before s' hb hs =>
        hall (i + 1) before s' (by simpa [tauBefores] using hb) (by simpa using hs))
      refine ⟨x :: xs, by simp [hl], ?_, ?_⟩
      · have hfin : tauFinal start (s :: steps) = tauFinal s.after steps := by
          unfold tauFinal
          cases steps with
          | nil => rfl
          | cons a l =>
            rw [List.getLast?_cons_cons, List.getLast?_cons]
            rfl
        rw [hfin]
        convert hf using 2 <;> simp [keyProduct] <;> ring
      · intro i before s' x' hb hs hx'
        cases i with
        | zero =>
          simp only [tauBefores, List.getElem?_cons_zero, Option.some.injEq] at hb hs hx'
          subst hb hs hx'
          exact hpok
        | succ i =>
          exact hp i before s' x' (by simpa [tauBefores] using hb) (by simpa using hs) (by simpa using hx')
  intro hall
  have hw : TauWellFormed P (TauAccumulator.new P len) (⟨1, 1, 1⟩ : TauKey F) := by
    rw [new_eq]
    exact tauStructure_wellFormed P len _
  obtain ⟨xs, hl, hf, hp⟩ := main steps (TauAccumulator.new P len) ⟨1, 1, 1⟩ hw one_ne_zero hall
  refine ⟨xs, hl, by simpa using hf, fun i before s x hb hs hx => ?_⟩
  have := hp i before s x hb hs hx
  exact ⟨this, fun key g hkey => this.unique hK (tauPokFor_honest hkey)⟩

/-- Honest ceremonies are like that: whatever the secrets are (if no `β` is zero), and whatever few choices are bad,
there are choices that are not. -/
theorem C55_honest_ceremony [Fintype F] {P : Pairing F G1 G2 GT} (hP : P.Cyclic) (K : PokLib G2)
    (hK : ∀ x, K.hash x ≠ []) (transcript : TauAccumulator G1 G2 → List UInt8) (len : Nat) (hlen : 2 ≤ len)
    (bad : TauPublicKey G1 G2 → TauAccumulator G1 G2 → (after : TauAccumulator G1 G2) → Finset (TauRandom F after))
    (hbad : ∀ pk before after, (bad pk before after).card * Fintype.card F ≤ Fintype.card (TauRandom F after))
    (keys : List (TauKey F)) (hβ : ∀ key ∈ keys, key.beta ≠ 0) (g : G1 × G1 × G1) :
    ∃ steps : List (TauStep F G1 G2), steps.length = keys.length ∧
      keys.foldlM (TauAccumulator.transform len) (TauAccumulator.new P len) =
        some (tauFinal (TauAccumulator.new P len) steps) ∧
      ∀ (i : Nat) (before : TauAccumulator G1 G2) (s : TauStep F G1 G2),
        (tauBefores (TauAccumulator.new P len) steps)[i]? = some before → steps[i]? = some s →
        (tauVerify P K transcript s.pk before s.after s.random.draws = some true ∧
          s.random ∉ bad s.pk before s.after ∧ s.after.betaG2 ≠ 0) ∧
        ∃ key, keys[i]? = some key ∧ before.transform len key = some s.after ∧
          tauProve K transcript key before g = some s.pk := by
  have hone : P.one2 ≠ 0 := by
    intro h
    apply hP.e_ne
    rw [h]
    simp
  have main : ∀ (keys : List (TauKey F)) (k : TauKey F), k.beta ≠ 0 → (∀ key ∈ keys, key.beta ≠ 0) →
      ∃ steps : List (TauStep F G1 G2), steps.length = keys.length ∧
      keys.foldlM (TauAccumulator.transform len) (tauStructure P len k) =
        some (tauFinal (tauStructure P len k) steps) ∧
      ∀ (i : Nat) (before : TauAccumulator G1 G2) (s : TauStep F G1 G2),
        (tauBefores (tauStructure P len k) steps)[i]? = some before → steps[i]? = some s →
        (tauVerify P K transcript s.pk before s.after s.random.draws = some true ∧
          s.random ∉ bad s.pk before s.after ∧ s.after.betaG2 ≠ 0) ∧
        ∃ key, keys[i]? = some key ∧ before.transform len key = some s.after ∧
          tauProve K transcript key before g = some s.pk := by
    intro keys
    induction keys with
    | nil => intro k _ _; exact ⟨[], rfl, rfl, by simp⟩
    | cons key keys ih =>
      intro k hk hall
      obtain ⟨pk, hpk⟩ := tauProve_some K hK transcript key (tauStructure P len k) g
      let k' : TauKey F := ⟨k.tau * key.tau, k.alpha * key.alpha, k.beta * key.beta⟩
      have hk' : k'.beta ≠ 0 := mul_ne_zero hk (hall key (by simp))
      obtain ⟨r, hr⟩ : ∃ r : TauRandom F (tauStructure P len k'), r ∉ bad pk (tauStructure P len k) _ := by
        by_contra hno
        push Not at hno
        have h1 := hbad pk (tauStructure P len k) (tauStructure P len k')
        rw [Finset.eq_univ_iff_forall.2 hno, Finset.card_univ] at h1
        have h2 : 1 < Fintype.card F := Fintype.one_lt_card
        have h3 : 0 < Fintype.card (TauRandom F (tauStructure P len k')) := Fintype.card_pos
        nlinarith
      obtain ⟨steps, hl, hfold, hs⟩ := ih k' hk' fun x hx => hall x (by simp [hx])
      have htr : (tauStructure P len k).transform len key = some (tauStructure P len k') :=
        transform_tauStructure P len (by omega) k key
      refine ⟨⟨pk, tauStructure P len k', r⟩ :: steps, by simp [hl], ?_, ?_⟩
      · rw [List.foldlM_cons, htr]
        refine hfold.trans ?_
        cases steps with
        | nil => rfl
        | cons a l => simp [tauFinal, List.getLast?_cons_cons, List.getLast?_eq_getLast_of_ne_nil]
      intro i before s hb hsi
      cases i with
      | zero =>
        simp only [tauBefores, List.getElem?_cons_zero, Option.some.injEq] at hb hsi
        subst hb hsi
        refine ⟨⟨?_, hr, ?_⟩, key, rfl, htr, hpk⟩
        · exact structured_accepted hP K transcript len len hlen hlen k key g pk hpk r.draws
            (by simp [TauRandom.draws, tauStructure]; omega)
        · show k'.beta • P.one2 ≠ 0
          exact smul_ne_zero hk' hone
      | succ i =>
        obtain ⟨h1, key', h2, h3, h4⟩ := hs i before s (by simpa [tauBefores] using hb) (by simpa using hsi)
        exact ⟨h1, key', by simpa using h2, h3, h4⟩
  have := main keys ⟨1, 1, 1⟩ one_ne_zero hβ
  rwa [← new_eq] at this

/-- An example: two contributors, over a field of 17 elements. -/
example : ∃ steps : List (TauStep (ZMod 17) (ZMod 17) (ZMod 17)), steps.length = 2 ∧
    TauWellFormed exPairing17 (tauFinal (TauAccumulator.new exPairing17 3) steps) ⟨14, 16, 14⟩ := by
  obtain ⟨bad, hbad, h⟩ := C55_ceremony_partial exPairing17_cyclic exPokLib exPokLib_ne exTauTranscript
  obtain ⟨steps, hl, -, hs⟩ := C55_honest_ceremony exPairing17_cyclic exPokLib (fun x => by simp [exPokLib])
    exTauTranscript 3 (by norm_num) bad hbad [⟨2, 3, 5⟩, ⟨7, 11, 13⟩] (by decide) (1, 1, 1)
  obtain ⟨xs, hxl, hw, hx⟩ := h 3 steps fun i before s hb hsi => (hs i before s hb hsi).1
  refine ⟨steps, hl, ?_⟩
  have hxs : xs = [⟨2, 3, 5⟩, ⟨7, 11, 13⟩] := by
    apply List.ext_getElem (by rw [hxl, hl])
    intro i h1 h2
    have hi : i < steps.length := by omega
    have hb : (tauBefores (TauAccumulator.new exPairing17 3) steps)[i]? =
        some ((tauBefores (TauAccumulator.new exPairing17 3) steps)[i]'(by simp [tauBefores]; omega)) :=
      List.getElem?_eq_getElem _
    obtain ⟨-, key, hk, -, hp⟩ := hs i _ _ hb (List.getElem?_eq_getElem hi)
    have := (hx i _ _ _ hb (List.getElem?_eq_getElem hi) (List.getElem?_eq_getElem h1)).2 key _ hp
    rw [this]
    exact (Option.some_inj.1 (hk.symm.trans (List.getElem?_eq_getElem h2)))
  rw [hxs] at hw
  have hk : keyProduct ([⟨2, 3, 5⟩, ⟨7, 11, 13⟩] : List (TauKey (ZMod 17))) = ⟨14, 16, 14⟩ := by
    simp only [keyProduct, List.map_cons, List.map_nil, TauKey.mk.injEq]
    decide
  rwa [hk] at hw

end Crypto3Zk
