import Verif.Spec.Equality
import Verif.Spec.LookupArg
import Verif.Lemmas.Expression
import Verif.Lemmas.FRI
import Verif.Lemmas.PlaceholderPoints

/-!
# Lemmas about comparisons
-/

namespace Crypto3Zk

set_option linter.unusedSectionVars false

theorem vecEq_iff {α : Type} (eq : α → α → Bool) (as bs : List α) :
    vecEq eq as bs = true ↔ List.Forall₂ (fun a b => eq a b = true) as bs := by
  induction as generalizing bs with
  | nil => cases bs <;> simp [vecEq]
  | cons a as ih => cases bs <;> simp [vecEq, ih]

theorem forall₂_eq_iff {α : Type} {r : α → α → Prop} (h : ∀ a b, r a b ↔ a = b) (as bs : List α) :
    List.Forall₂ r as bs ↔ as = bs := by
  induction as generalizing bs with
  | nil => cases bs <;> simp
  | cons a as ih => cases bs <;> simp [ih, h]

theorem vecEq_eq_iff {α : Type} {eq : α → α → Bool} (h : ∀ a b, eq a b = true ↔ a = b) (as bs : List α) :
    vecEq eq as bs = true ↔ as = bs := by
  rw [vecEq_iff, forall₂_eq_iff h]

section fri
variable {F : Type} [Field F] [DecidableEq F] {L : FftLib F} {A : Nat}

theorem root_injective (hL : L.Lawful A) {n m : Nat} (hn : n ≤ A) (hm : m ≤ A)
    (h : L.root n = L.root m) : n = m := by
  have key : ∀ n m : Nat, n < m → m ≤ A → L.root n ≠ L.root m := by
    intro n m hlt hm h
    obtain ⟨k, rfl⟩ : ∃ k, m = k + 1 := ⟨m - 1, by omega⟩
    have h1 := root_pow_half hL k (by omega)
    have h2 := root_pow_card hL n (by omega)
    rw [← h] at h1
    have : (2 : Nat) ^ k = 2 ^ n * 2 ^ (k - n) := by rw [← pow_add]; congr 1; omega
    rw [this, pow_mul, h2, one_pow] at h1
    have h3 : (2 : F) = 0 := by linear_combination h1
    exact hL.two_ne h3
  rcases lt_trichotomy n m with hlt | heq | hgt
  · exact absurd h (key n m hlt hm)
  · exact heq
  · exact absurd h.symm (key m n hgt hn)

theorem domainsEq_iff (hL : L.Lawful A) (Ds Es : List (FriDomain F)) (hlen : Ds.length = Es.length)
    (hD : ∀ D ∈ Ds, ∃ n ≤ A, D = L.domain n) (hE : ∀ D ∈ Es, ∃ n ≤ A, D = L.domain n) :
    domainsEq Ds Es = true ↔ Ds = Es := by
  induction Ds generalizing Es with
  | nil => cases Es with
    | nil => simp [domainsEq]
    | cons => simp at hlen
  | cons D Ds ih => cases Es with
    | nil => simp at hlen
    | cons E Es =>
      obtain ⟨n, hn, rfl⟩ := hD D (by simp)
      obtain ⟨m, hm, rfl⟩ := hE E (by simp)
      have ih := ih Es (by simpa using hlen) (fun D h => hD D (by simp [h])) (fun D h => hE D (by simp [h]))
      by_cases h : (L.domain n).elem 1 = (L.domain m).elem 1
      · have hnm : n = m := root_injective hL hn hm (by simpa [FftLib.domain] using h)
        subst hnm
        simp [domainsEq, ih]
      · simp only [domainsEq, ne_eq, h, not_false_eq_true, if_true, Bool.false_eq_true, List.cons.injEq,
          false_iff, not_and]
        intro h' _
        exact h (by rw [h'])

theorem paramsEqv_iff (hL : L.Lawful A) (p q : FriParams F) (hp : p.LibDomains L A)
    (hq : q.LibDomains L A) (e e' : Nat) :
    p.eqv q e e' = true ↔ p.SameSettings q ∧ e = e' := by
  unfold FriParams.eqv FriParams.SameSettings
  by_cases hlen : p.D.length = q.D.length
  · have hd := domainsEq_iff hL p.D q.D hlen hp hq
    by_cases hde : p.D = q.D
    · rw [if_neg (by simpa using hlen), if_neg (by simp [hd.mpr hde])]
      by_cases hg : p.useGrinding = true ∧ q.useGrinding = true ∧ p.grindingParameter ≠ q.grindingParameter
      · rw [if_pos (by simp [hg])]
        simp only [Bool.false_eq_true, false_iff]
        rintro ⟨⟨_, _, _, _, _, _, h⟩, _⟩
        exact hg.2.2 (h hg.1)
      · rw [if_neg (by simpa [and_assoc] using hg)]
        simp only [Bool.and_eq_true, decide_eq_true_eq]
        constructor
        · rintro ⟨⟨⟨⟨⟨h1, h2⟩, h3⟩, h4⟩, h5⟩, h6⟩
          refine ⟨⟨h5, h6, h2, hde, h1, h3, fun hu => ?_⟩, h4⟩
          by_contra hne
          exact hg ⟨hu, h6 ▸ hu, hne⟩
        · rintro ⟨⟨h5, h6, h2, _, h1, h3, _⟩, h4⟩
          exact ⟨⟨⟨⟨⟨h1, h2⟩, h3⟩, h4⟩, h5⟩, h6⟩
    · have : domainsEq p.D q.D = false := by
        cases h : domainsEq p.D q.D
        · rfl
        · exact absurd (hd.mp h) hde
      simp [hlen, this, hde]
  · have hde : p.D ≠ q.D := fun h => hlen (by rw [h])
    simp [hlen, hde]

variable {Root Path : Type} [DecidableEq Root] [DecidableEq Path]

theorem roundEqv_iff (a b : FriRoundProof F Path) : a.eqv b = true ↔ a = b := by
  cases a; cases b; simp [FriRoundProof.eqv, and_comm]

theorem initialEqv_iff (a b : FriInitialProof F Path) : a.eqv b = true ↔ a = b := by
  cases a; cases b; simp [FriInitialProof.eqv]

theorem queryEqv_iff (a b : FriQueryProof F Path) : a.eqv b = true ↔ a = b := by
  cases a; cases b
  simp only [FriQueryProof.eqv, Bool.and_eq_true, FriQueryProof.mk.injEq]
  rw [vecEq_eq_iff (eq := FriRoundProof.eqv) roundEqv_iff]
  rw [vecEq_eq_iff (fun a b => by cases a; cases b; simp [initialEqv_iff])]

theorem proofEqv_iff (a b : FriProof F Root Path) : a.eqv b = true ↔ a.SameButNonce b := by
  unfold FriProof.eqv FriProof.SameButNonce
  simp only [Bool.and_eq_true, decide_eq_true_eq]
  rw [vecEq_eq_iff queryEqv_iff]
  tauto

/-! ## the verifier does not read the grinding parameter -/

variable {Tree S : Type} (M : MerkleLib F Tree Root Path) (T : FriTranscript S F Root)

theorem friColinears_grinding (p : FriParams F) (g : Nat) (alphas : List F) (step n : Nat) (w : FriWalk F) :
    friColinears { p with grindingParameter := g } alphas step n w = friColinears p alphas step n w := by
  induction n generalizing w with
  | zero => rfl
  | succ n ih =>
    simp only [friColinears]
    have : friColinear { p with grindingParameter := g } alphas step w = friColinear p alphas step w := rfl
    rw [this]
    simp only [ih]

theorem friRound_grinding (p : FriParams F) (g : Nat) (alphas : List F) (step : Nat) (root : Root)
    (rp : FriRoundProof F Path) (w : FriWalk F) :
    friRound M { p with grindingParameter := g } alphas step root rp w = friRound M p alphas step root rp w := by
  unfold friRound
  simp only [friColinears_grinding]
  rfl

theorem friRounds_grinding (p : FriParams F) (g : Nat) (alphas : List F) (steps : List Nat)
    (roots : List Root) (rps : List (FriRoundProof F Path)) (w : FriWalk F) :
    friRounds M { p with grindingParameter := g } alphas steps roots rps w =
      friRounds M p alphas steps roots rps w := by
  induction steps generalizing roots rps w with
  | nil => rfl
  | cons s rest ih =>
    cases rest with
    | nil => simp only [friRounds, friRound_grinding]
    | cons s' rest' =>
      rw [friRounds, friRounds]
      simp only [friRound_grinding]
      simp only [ih]

theorem friVerifyQuery_grinding (p : FriParams F) (g : Nat) (commitments : OMap Root) (theta : F)
    (items : List (List (Nat × Nat) × F × List F)) (alphas : List F) (roots : List Root)
    (final : List F) (q : FriQueryProof F Path) (st : S) :
    friVerifyQuery M T { p with grindingParameter := g } commitments theta items alphas roots final q st =
      friVerifyQuery M T p commitments theta items alphas roots final q st := by
  unfold friVerifyQuery
  simp only [friRounds_grinding]
  rfl

theorem friVerifyQueries_grinding (p : FriParams F) (g : Nat) (commitments : OMap Root) (theta : F)
    (items : List (List (Nat × Nat) × F × List F)) (alphas : List F) (roots : List Root)
    (final : List F) (n : Nat) (qs : List (FriQueryProof F Path)) (st : S) :
    friVerifyQueries M T { p with grindingParameter := g } commitments theta items alphas roots final n qs st =
      friVerifyQueries M T p commitments theta items alphas roots final n qs st := by
  induction n generalizing qs st with
  | zero => rfl
  | succ n ih => simp only [friVerifyQueries, friVerifyQuery_grinding, ih]

theorem friVerify_grinding (p : FriParams F) (g : Nat) (hp : p.useGrinding = false)
    (proof : FriProof F Root Path) (commitments : OMap Root) (theta : F)
    (items : List (List (Nat × Nat) × F × List F)) (st : S) :
    friVerify M T { p with grindingParameter := g } proof commitments theta items st =
      friVerify M T p proof commitments theta items st := by
  have e : friDegreeOk { p with grindingParameter := g } proof.finalPolynomial =
      friDegreeOk p proof.finalPolynomial := rfl
  unfold friVerify
  rw [e]
  simp only [friVerifyQueries_grinding]
  simp only [hp, Bool.false_eq_true, if_false]

theorem friVerify_same {p q : FriParams F} (h : p.SameSettings q) (hm : p.modulus = q.modulus)
    (proof : FriProof F Root Path) (commitments : OMap Root) (theta : F)
    (items : List (List (Nat × Nat) × F × List F)) (st : S) :
    friVerify M T p proof commitments theta items st = friVerify M T q proof commitments theta items st := by
  obtain ⟨h1, h2, h3, h4, h5, h6, h7⟩ := h
  have hq : q = { p with grindingParameter := q.grindingParameter } := by
    cases p; cases q; simp_all
  by_cases hu : p.useGrinding = true
  · have : q = p := by rw [hq, ← h7 hu]
    rw [this]
  · rw [hq]
    exact (friVerify_grinding M T p _ (by simpa using hu) proof commitments theta items st).symm

theorem friVerify_nonce (p : FriParams F) (hp : p.useGrinding = false) {a b : FriProof F Root Path}
    (h : a.SameButNonce b) (commitments : OMap Root) (theta : F)
    (items : List (List (Nat × Nat) × F × List F)) (st : S) :
    friVerify M T p a commitments theta items st = friVerify M T p b commitments theta items st := by
  obtain ⟨h1, h2, h3⟩ := h
  unfold friVerify
  simp only [h1, h2, h3, hp, Bool.false_eq_true, if_false]

end fri

/-! ## constraint systems -/

section plonk
variable {F : Type} [Field F] [DecidableEq F]

theorem termM_perm {V : Type} (get : V → Option F) {vs ws : List V} (h : vs.Perm ws) (c : F) :
    vs.foldlM (fun res v => do return res * (← get v)) c =
      ws.foldlM (fun res v => do return res * (← get v)) c := by
  induction h generalizing c with
  | nil => rfl
  | cons v _ ih =>
    simp only [List.foldlM_cons]
    cases get v with
    | none => rfl
    | some x => exact ih _
  | swap v w l =>
    simp only [List.foldlM_cons]
    cases get v with
    | none => cases get w <;> rfl
    | some x => cases get w with
      | none => rfl
      | some y =>
        show l.foldlM _ (c * y * x) = l.foldlM _ (c * x * y)
        rw [mul_right_comm]
  | trans _ _ ih ih' => exact (ih c).trans (ih' c)

theorem evalM_same {V : Type} (get : V → Option F) {e f : Expr V F} (h : Expr.SameUpToOrder e f) :
    e.evalM get = f.evalM get := by
  induction h with
  | term h => exact termM_perm get h _
  | pow _ ih => simp only [Expr.evalM, ih]
  | @bin o _ _ _ _ _ _ ih ih' => cases o <;> simp only [Expr.evalM, ih, ih']

theorem maxDegree32_same {V : Type} {e f : Expr V F} (h : Expr.SameUpToOrder e f) :
    e.maxDegree32 = f.maxDegree32 := by
  induction h with
  | term h => simp only [Expr.maxDegree32, h.length_eq]
  | pow _ ih => simp only [Expr.maxDegree32, ih]
  | @bin o _ _ _ _ _ _ ih ih' => cases o <;> simp only [Expr.maxDegree32, ih, ih']

theorem visitVars_same {V : Type} {e f : Expr V F} (h : Expr.SameUpToOrder e f) :
    e.visitVars.Perm f.visitVars := by
  induction h with
  | term h => exact h
  | pow _ ih => exact ih
  | bin _ _ ih ih' => exact ih.append ih'

theorem varBeq_iff (a b : PlonkVar) : a.beq b = true ↔ a = b := by
  cases a; cases b; simp [PlonkVar.beq]; tauto

theorem forall₂_iff_of {α : Type} {r s : α → α → Prop} (h : ∀ a b, r a b ↔ s a b) (as bs : List α) :
    List.Forall₂ r as bs ↔ List.Forall₂ s as bs := by
  have : r = s := by funext a b; exact propext (h a b)
  rw [this]

theorem exprsEq_iff (es fs : List (Expr PlonkVar F)) : vecEq Expr.beq es fs = true ↔ SameExprs es fs := by
  rw [vecEq_iff]
  exact forall₂_iff_of Expr.beq_iff es fs

theorem tableEqv_iff (a b : LookupTable) : a.eqv b = true ↔ a = b := by
  cases a; cases b
  simp only [LookupTable.eqv, Bool.and_eq_true, decide_eq_true_eq, LookupTable.mk.injEq]
  rw [vecEq_eq_iff (fun a b => vecEq_eq_iff varBeq_iff a b)]
  tauto

theorem circuitEqv_iff (a b : Circuit F) : a.eqv b = true ↔ SameCircuit a b := by
  have hg : vecEq Gate.eqv a.gates b.gates = true ↔ List.Forall₂
      (fun g h : Gate F => g.selectorIndex = h.selectorIndex ∧ SameExprs g.constraints h.constraints)
      a.gates b.gates := by
    rw [vecEq_iff]
    exact forall₂_iff_of (fun g h => by simp [Gate.eqv, exprsEq_iff]) _ _
  have hc : vecEq copyEq a.copies b.copies = true ↔ a.copies = b.copies :=
    vecEq_eq_iff (fun x y => by cases x; cases y; simp [copyEq, varBeq_iff]) _ _
  have hl : vecEq LookupGate.eqv a.lookups.gates b.lookups.gates = true ↔ List.Forall₂
      (fun g h : LookupGate F => g.tagIndex = h.tagIndex ∧
        List.Forall₂ (fun c d : LookupConstraint F => c.tableId = d.tableId ∧ SameExprs c.input d.input)
          g.constraints h.constraints) a.lookups.gates b.lookups.gates := by
    rw [vecEq_iff]
    refine forall₂_iff_of (fun g h => ?_) _ _
    simp only [LookupGate.eqv, Bool.and_eq_true, decide_eq_true_eq, vecEq_iff]
    rw [forall₂_iff_of (fun c d => by
      show c.eqv d = true ↔ c.tableId = d.tableId ∧ SameExprs c.input d.input
      simp [LookupConstraint.eqv, exprsEq_iff])]
  have ht : vecEq LookupTable.eqv a.lookups.tables b.lookups.tables = true ↔
      a.lookups.tables = b.lookups.tables := vecEq_eq_iff tableEqv_iff _ _
  unfold Circuit.eqv
  simp only [Bool.and_eq_true, decide_eq_true_eq, hg, hc, hl, ht]
  constructor
  · rintro ⟨⟨⟨⟨h1, h2⟩, h3⟩, h4⟩, h5⟩
    exact ⟨h1, h2, h3, h4, h5⟩
  · rintro ⟨h1, h2, h3, h4, h5⟩
    exact ⟨⟨⟨⟨h1, h2⟩, h3⟩, h4⟩, h5⟩

/-! ## equal circuits are treated alike -/

theorem SameExprs.symm {es fs : List (Expr PlonkVar F)} (h : SameExprs es fs) : SameExprs fs es := by
  have hs : ∀ e f : Expr PlonkVar F, Expr.SameUpToOrder e f → Expr.SameUpToOrder f e := by
    intro e f h
    induction h with
    | term h => exact .term h.symm
    | pow _ ih => exact .pow ih
    | bin _ _ ih ih' => exact .bin ih ih'
  exact (h.imp fun e f h => hs e f h).flip

theorem SameCircuit.symm {a b : Circuit F} (h : SameCircuit a b) : SameCircuit b a where
  gates := (h.gates.imp fun _ _ h => ⟨h.1.symm, h.2.symm⟩).flip
  copies := h.copies.symm
  lookupGates := (h.lookupGates.imp fun _ _ h =>
    ⟨h.1.symm, (h.2.imp fun _ _ h => ⟨h.1.symm, h.2.symm⟩).flip⟩).flip
  tables := h.tables.symm
  sizes := h.sizes.symm

theorem mapM_forall₂ {α β : Type} {f g : α → Option β} {as bs : List α}
    (h : List.Forall₂ (fun a b => f a = g b) as bs) : as.mapM f = bs.mapM g := by
  induction h with
  | nil => rfl
  | cons h _ ih => simp only [List.mapM_cons, h, ih]

theorem map_forall₂ {α β : Type} {f g : α → β} {as bs : List α}
    (h : List.Forall₂ (fun a b => f a = g b) as bs) : as.map f = bs.map g := by
  induction h with
  | nil => rfl
  | cons h _ ih => simp only [List.map_cons, h, ih]

theorem foldl_forall₂ {α β : Type} {f g : β → α → β} {as bs : List α}
    (h : List.Forall₂ (fun a b => ∀ x, f x a = g x b) as bs) (x : β) : as.foldl f x = bs.foldl g x := by
  induction h generalizing x with
  | nil => rfl
  | cons h _ ih => simp only [List.foldl_cons, h, ih]

theorem flatMap_forall₂ {α β : Type} {f g : α → List β} {as bs : List α}
    (h : List.Forall₂ (fun a b => f a = g b) as bs) : as.flatMap f = bs.flatMap g := by
  induction h with
  | nil => rfl
  | cons h _ ih => simp only [List.flatMap_cons, h, ih]

theorem mem_flatMap_forall₂ {α β : Type} {f g : α → List β} {as bs : List α} (x : β)
    (h : List.Forall₂ (fun a b => x ∈ f a ↔ x ∈ g b) as bs) : x ∈ as.flatMap f ↔ x ∈ bs.flatMap g := by
  induction h with
  | nil => simp
  | cons h _ ih => simp only [List.flatMap_cons, List.mem_append, h, ih]

theorem mem_exprs_same {es fs : List (Expr PlonkVar F)} (h : SameExprs es fs) (v : PlonkVar) :
    v ∈ es.flatMap Expr.visitVars ↔ v ∈ fs.flatMap Expr.visitVars :=
  mem_flatMap_forall₂ v (h.imp fun _ _ h => (visitVars_same h).mem_iff)

theorem SameCircuit.mem_usedVars {a b : Circuit F} (h : SameCircuit a b) (v : PlonkVar) :
    v ∈ a.usedVars ↔ v ∈ b.usedVars := by
  unfold Circuit.usedVars
  rw [List.mem_append, List.mem_append]
  refine or_congr (mem_flatMap_forall₂ v (h.gates.imp fun _ _ h => mem_exprs_same h.2 v))
    (mem_flatMap_forall₂ v (h.lookupGates.imp fun _ _ h => mem_flatMap_forall₂ v
      (h.2.imp fun _ _ h => mem_exprs_same h.2 v)))

theorem SameCircuit.varUsed {a b : Circuit F} (h : SameCircuit a b) (d : TableDesc) (i : Nat) (r : Int) :
    VarUsed d a i r ↔ VarUsed d b i r := by
  unfold VarUsed
  simp only [h.mem_usedVars]

theorem SameCircuit.lookupGates_nil {a b : Circuit F} (h : SameCircuit a b) :
    a.lookups.gates.length = b.lookups.gates.length := h.lookupGates.length_eq

theorem SameCircuit.lookupTableUsed {a b : Circuit F} (h : SameCircuit a b) (d : TableDesc) (i : Nat)
    (r : Int) : LookupTableUsed d a i r ↔ LookupTableUsed d b i r := by
  unfold LookupTableUsed
  rw [h.tables]
  have : a.lookups.gates ≠ [] ↔ b.lookups.gates ≠ [] := by
    rw [← List.length_pos_iff, ← List.length_pos_iff, h.lookupGates_nil]
  rw [this]

theorem sorted_ext {l m : List Int} (hl : l.Pairwise (· < ·)) (hm : m.Pairwise (· < ·))
    (h : ∀ x, x ∈ l ↔ x ∈ m) : l = m := by
  have hp : l.Perm m := (List.perm_ext_iff_of_nodup (hl.imp (fun h => ne_of_lt h))
    (hm.imp (fun h => ne_of_lt h))).2 h
  exact hp.eq_of_pairwise (fun a b _ _ h h' => absurd h' (not_lt.2 h.le)) hl hm

theorem mapM_defined {α β : Type} {f : α → Option β} {l : List α} {r : List β} (h : l.mapM f = some r) :
    ∀ a ∈ l, ∃ b, f a = some b := by
  induction l generalizing r with
  | nil => simp
  | cons a l ih =>
    rw [List.mapM_cons] at h
    obtain ⟨b, hb, h⟩ := Option.bind_eq_some_iff.1 h
    obtain ⟨bs, hbs, -⟩ := Option.bind_eq_some_iff.1 h
    intro x hx
    rcases List.mem_cons.1 hx with rfl | hx
    · exact ⟨b, hb⟩
    · exact ih hbs x hx

theorem columnsRotations_vars {d : TableDesc} {c : Circuit F} {rots : List (List Int)}
    (h : columnsRotations d c = some rots) : ∀ v ∈ c.usedVars, v.type ≠ .uninitialized := by
  unfold columnsRotations at h
  obtain ⟨rs, hrs, -⟩ := Option.bind_eq_some_iff.1 h
  unfold rotationRequests at hrs
  obtain ⟨vs, hvs, -⟩ := Option.bind_eq_some_iff.1 hrs
  intro v hv hu
  obtain ⟨b, hb⟩ := mapM_defined hvs v hv
  simp [TableDesc.globalIndex, hu] at hb

theorem SameCircuit.columnsRotations_of {a b : Circuit F} (h : SameCircuit a b) (d : TableDesc)
    (rots : List (List Int)) (hr : columnsRotations d a = some rots) :
    columnsRotations d b = some rots := by
  obtain ⟨h1, h2, h3, h4⟩ := columnsRotations_spec d a rots hr
  obtain ⟨rots', hr'⟩ := columnsRotations_defined d b
    (fun v hv => columnsRotations_vars hr v ((h.mem_usedVars v).2 hv))
    (fun i r hi => h3 i r (by rwa [h.varUsed, h.lookupTableUsed]))
  obtain ⟨h1', h2', h3', h4'⟩ := columnsRotations_spec d b rots' hr'
  rw [hr']
  congr 1
  apply List.ext_getElem (by rw [h1, h1'])
  intro i hi hi'
  refine sorted_ext (h2' _ (List.getElem_mem hi)) (h2 _ (List.getElem_mem hi')) fun x => ?_
  have e := h4' i (by omega) x
  have e' := h4 i (by omega) x
  rw [List.getD_eq_getElem _ _ hi] at e
  rw [List.getD_eq_getElem _ _ hi'] at e'
  rw [e, e', h.varUsed, h.lookupTableUsed]

theorem SameCircuit.columnsRotations_eq {a b : Circuit F} (h : SameCircuit a b) (d : TableDesc) :
    columnsRotations d a = columnsRotations d b := by
  apply Option.ext
  intro rots
  exact ⟨h.columnsRotations_of d rots, h.symm.columnsRotations_of d rots⟩

theorem evaluateOnMap_same (ev : Nat → Int → ColumnType → Option F) {e f : Expr PlonkVar F}
    (h : Expr.SameUpToOrder e f) : evaluateOnMap ev e = evaluateOnMap ev f := evalM_same _ h

theorem verifyConstraints_same (ev : Nat → Int → ColumnType → Option F) (theta : F)
    {es fs : List (Expr PlonkVar F)} (h : SameExprs es fs) (acc res : F) :
    verifyConstraints ev theta es acc res = verifyConstraints ev theta fs acc res := by
  unfold SameExprs at h
  induction h generalizing acc res with
  | nil => rfl
  | cons h _ ih => simp only [verifyConstraints, evaluateOnMap_same ev h, ih]

theorem verifyGates_same (ev : Nat → Int → ColumnType → Option F) (theta : F) {gs hs : List (Gate F)}
    (h : List.Forall₂ (fun g h : Gate F => g.selectorIndex = h.selectorIndex ∧
      SameExprs g.constraints h.constraints) gs hs) (acc f : F) :
    verifyGates ev theta gs acc f = verifyGates ev theta hs acc f := by
  induction h generalizing acc f with
  | nil => rfl
  | cons h _ ih => simp only [verifyGates, verifyConstraints_same ev theta h.2, h.1, ih]

theorem verifyInputLoop_same (ev : Nat → Int → ColumnType → Option F) (theta sel : F)
    {es fs : List (Expr PlonkVar F)} (h : SameExprs es fs) (acc l : F) :
    verifyInputLoop ev theta sel es acc l = verifyInputLoop ev theta sel fs acc l := by
  unfold SameExprs at h
  induction h generalizing acc l with
  | nil => rfl
  | cons h _ ih => simp only [verifyInputLoop, evaluateOnMap_same ev h, ih]

variable {a b : Circuit F}

theorem SameCircuit.verifyInputs_eq (h : SameCircuit a b) (ev : Nat → Int → ColumnType → Option F)
    (theta : F) : verifyInputs ev a.lookups theta = verifyInputs ev b.lookups theta := by
  unfold verifyInputs
  rw [mapM_forall₂ (h.lookupGates.imp fun g g' hg => ?_)]
  simp only [hg.1]
  exact mapM_forall₂ (hg.2.imp fun c c' hc => by rw [verifyInputLoop_same _ _ _ hc.2, hc.1])

theorem degree_same {c c' : LookupConstraint F} (h : SameExprs c.input c'.input) : c.degree = c'.degree :=
  foldl_forall₂ (h.imp fun _ _ h x => by rw [maxDegree32_same h]) 0

theorem SameCircuit.parts_eq (h : SameCircuit a b) (mqc : Nat) : a.lookups.parts mqc = b.lookups.parts mqc := by
  unfold LookupSystem.parts
  have e : a.lookups.gates.flatMap (fun g => g.constraints.map LookupConstraint.degree) =
      b.lookups.gates.flatMap (fun g => g.constraints.map LookupConstraint.degree) :=
    flatMap_forall₂ (h.lookupGates.imp fun g g' hg =>
      map_forall₂ (hg.2.imp fun c c' hc => degree_same hc.2))
  rw [h.tables, h.lookupGates_nil, e]

theorem SameCircuit.maxDegree_eq (h : SameCircuit a b) : a.maxDegree = b.maxDegree := by
  have hx : ∀ {es fs : List (Expr PlonkVar F)}, SameExprs es fs → ∀ x : Nat,
      es.foldl (fun d e => max d e.maxDegree32) x = fs.foldl (fun d e => max d e.maxDegree32) x :=
    fun h x => foldl_forall₂ (h.imp fun _ _ he y => by rw [maxDegree32_same he]) x
  have h1 : a.gatesDegree = b.gatesDegree :=
    foldl_forall₂ (h.gates.imp fun _ _ hg x => hx hg.2 x) 0
  have h2 : a.lookupGatesDegree = b.lookupGatesDegree :=
    foldl_forall₂ (h.lookupGates.imp fun _ _ hg x =>
      foldl_forall₂ (hg.2.imp fun _ _ hc y => hx hc.2 y) x) 0
  unfold Circuit.maxDegree
  rw [h1, h2]

theorem SameCircuit.lookupVerify_eq {S Com : Type} (h : SameCircuit a b) (ch : S → F × S)
    (absorb : Com → S → S) (com : Com) (mqc : Nat) (ev : Nat → Int → ColumnType → Option F)
    (c : LookupClaims F) (st : S) :
    lookupVerify ch absorb com a.lookups mqc ev c st = lookupVerify ch absorb com b.lookups mqc ev c st := by
  have hv : ∀ theta m m' : F, verifyValues ev a.lookups theta m m' = verifyValues ev b.lookups theta m m' := by
    intro theta m m'
    unfold verifyValues
    rw [h.tables]
  unfold lookupVerify
  simp only [hv, h.verifyInputs_eq, h.parts_eq]

theorem SameCircuit.gateVerify_eq {S : Type} (h : SameCircuit a b) (ch : S → F × S)
    (ev : Nat → Int → ColumnType → Option F) (m : F) (st : S) :
    gateVerify ch a.gates ev m st = gateVerify ch b.gates ev m st := by
  unfold gateVerify
  simp only [verifyGates_same ev _ h.gates]

theorem SameCircuit.verify_eq {S H Com Pr Data Obj : Type} (h : SameCircuit a b)
    (C : CommScheme F S Com Pr Data Obj) (T : PlonkTranscript S F H Com) (L : FftLib F) (n : Nat)
    (asserts : Bool) (d : TableDesc) (common : CommonData F H Com Data)
    (proof : PlaceholderProof F Com Pr) (obj : Obj) :
    placeholderVerify C T L n asserts d a common proof obj =
      placeholderVerify C T L n asserts d b common proof obj := by
  have hs : sizeOps proof.eval.1 a = sizeOps proof.eval.1 b := by
    unfold sizeOps
    rw [h.copies, h.lookupGates_nil]
  have hp : ∀ y, verifierPoints L n d a common y = verifierPoints L n d b common y := by
    intro y
    unfold verifierPoints
    rw [h.copies, h.lookupGates_nil]
  unfold placeholderVerify
  simp only [hs, hp, h.gateVerify_eq, h.lookupVerify_eq, h.copies, h.lookupGates_nil]

theorem SameCircuit.preprocess_eq {S H Com Pr Data Obj : Type} (h : SameCircuit a b)
    (C : CommScheme F S Com Pr Data Obj) (T : PlonkTranscript S F H Com) (L : FftLib F) (n fuel : Nat)
    (d : TableDesc) (order : List PlonkVar) (delta : F) (mqc : Nat) (hash : H) (t : PlonkTable F)
    (obj : Obj) :
    placeholderPreprocess C T L n fuel d a order delta mqc hash t obj =
      placeholderPreprocess C T L n fuel d b order delta mqc hash t obj := by
  unfold placeholderPreprocess
  simp only [h.maxDegree_eq, h.copies, h.columnsRotations_eq, h.parts_eq]

end plonk

end Crypto3Zk
