import Verif.Lemmas.Murty
import Mathlib.Tactic.SplitIfs

/-!
Helper lemmas on `Murty::findNextBest` with a real-assignment block, for the matrices that the filters build: `nR` real rows, `nC` real columns, a dummy column for each
real row and a dummy row for each real column.
-/

set_option linter.unusedSectionVars false

namespace RFS
namespace Murty
open Hungarian (Mat tolE)

variable {K : Type*} [Field K] [LinearOrder K] [IsStrictOrderedRing K] {n : Nat}

/-- Columns forbidden in row `k`, with the extra ones. -/
def forbX (nC : Nat) (fc : List (Fin n)) (k : Fin n) : List (Nat × (Fin n → Fin n)) → Fin n → Prop
  | [], _ => False
  | (nid, na) :: rest, c => (c = na k ∨ (nC ≤ fc.idxOf (na k) ∧ nC ≤ fc.idxOf c)) ∨ ((rest ≠ [] ∧ k.val ≤ nid) ∧ forbX nC fc k rest c)

/-- The permutations the solver chooses from. -/
def InSetX (nC k : Nat) (aP : Fin n → Fin n) (chain : List (Nat × (Fin n → Fin n))) (σ : Fin n → Fin n) : Prop :=
  Function.Bijective σ ∧ (∀ i : Fin n, i.val < k → σ i = aP i) ∧
    ∀ h : k < n, ¬ forbX nC (freeCols aP k) ⟨k, h⟩ chain (σ ⟨k, h⟩)

open Classical in
theorem forbid_specX {prm : Prm K n} {k : Nat} (hk : k < n) {aP : Fin n → Fin n}
    (hlen : (freeCols aP k).length = n - k) :
    ∀ (chain : List (Nat × (Fin n → Fin n))) (M : Mat K (n - k)), chain ≠ [] → ChainOK k aP chain →
      forbid prm k k (freeCols aP k) k chain M = some (fun r c =>
        if r.val = 0 ∧ forbX prm.nC (freeCols aP k) ⟨k, hk⟩ chain ((freeCols aP k).get (c.cast hlen.symm)) then -prm.big else M r c)
  | [], _, h, _ => absurd rfl h
  | (nid, na) :: rest, M, _, hc => by
    obtain ⟨hnid, hagree, hna, hrest⟩ := hc
    have hmem : na ⟨k, hk⟩ ∈ freeCols aP k := by
      rw [mem_freeCols]
      intro i hi e
      rw [← hagree i hi] at e
      have := hna.1 e
      rw [this] at hi; simp at hi
    have hidx : (freeCols aP k).idxOf (na ⟨k, hk⟩) < n - k := by
      rw [← hlen]; exact List.idxOf_lt_length_iff.2 hmem
    have hget : ∀ c : Fin (n - k), (freeCols aP k).get (c.cast hlen.symm) = na ⟨k, hk⟩ ↔
        c = ⟨(freeCols aP k).idxOf (na ⟨k, hk⟩), hidx⟩ := by
      intro c
      constructor
      · intro e
        apply Fin.ext
        simp only
        rw [← e, List.get_eq_getElem, (nodup_freeCols aP k).idxOf_getElem]
        rfl
      · rintro rfl
        simp
    have hidc : ∀ c : Fin (n - k), (freeCols aP k).idxOf ((freeCols aP k).get (c.cast hlen.symm)) = c.val := by
      intro c
      rw [List.get_eq_getElem, (nodup_freeCols aP k).idxOf_getElem]
      rfl
    have hz : k - k < n - k := by omega
    -- the matrix after this node
    have hM2 : ∀ (r c : Fin (n - k)),
        (if prm.nC ≤ (freeCols aP k).idxOf (na ⟨k, hk⟩) then
          Function.update (Function.update M ⟨k - k, hz⟩ (Function.update (M ⟨k - k, hz⟩) ⟨(freeCols aP k).idxOf (na ⟨k, hk⟩), hidx⟩ (-prm.big))) ⟨k - k, hz⟩
            (fun y => if prm.nC ≤ y.val then -prm.big else
              (Function.update M ⟨k - k, hz⟩ (Function.update (M ⟨k - k, hz⟩) ⟨(freeCols aP k).idxOf (na ⟨k, hk⟩), hidx⟩ (-prm.big))) ⟨k - k, hz⟩ y)
        else (Function.update M ⟨k - k, hz⟩ (Function.update (M ⟨k - k, hz⟩) ⟨(freeCols aP k).idxOf (na ⟨k, hk⟩), hidx⟩ (-prm.big)))) r c =
        if r.val = 0 ∧ ((freeCols aP k).get (c.cast hlen.symm) = na ⟨k, hk⟩ ∨ (prm.nC ≤ (freeCols aP k).idxOf (na ⟨k, hk⟩) ∧
          prm.nC ≤ (freeCols aP k).idxOf ((freeCols aP k).get (c.cast hlen.symm)))) then -prm.big else M r c := by
      intro r c
      simp only [hget, hidc]
      by_cases hr : r.val = 0
      · have hr' : r = ⟨k - k, hz⟩ := Fin.ext (by simp [hr])
        subst hr'
        by_cases hb : prm.nC ≤ (freeCols aP k).idxOf (na ⟨k, hk⟩)
        · rw [if_pos hb, Function.update_self, Function.update_self]
          by_cases h1 : prm.nC ≤ c.val
          · rw [if_pos h1, if_pos ⟨by simp, Or.inr ⟨hb, h1⟩⟩]
          · rw [if_neg h1]
            by_cases h2 : c = ⟨(freeCols aP k).idxOf (na ⟨k, hk⟩), hidx⟩
            · rw [h2, Function.update_self, if_pos ⟨by simp, Or.inl rfl⟩]
            · rw [Function.update_of_ne h2, if_neg]
              rintro ⟨-, h | h⟩
              · exact h2 h
              · exact h1 h.2
        · rw [if_neg hb, Function.update_self]
          by_cases h2 : c = ⟨(freeCols aP k).idxOf (na ⟨k, hk⟩), hidx⟩
          · rw [h2, Function.update_self, if_pos ⟨by simp, Or.inl rfl⟩]
          · rw [Function.update_of_ne h2, if_neg]
            rintro ⟨-, h | h⟩
            · exact h2 h
            · exact hb h.1
      · have hr' : r ≠ ⟨k - k, hz⟩ := fun e => hr (by rw [e]; simp)
        rw [if_neg (show ¬ (r.val = 0 ∧ _) from fun h => hr h.1)]
        split_ifs <;> simp only [Function.update_of_ne hr']
    simp only [forbid, hk, dif_pos]
    rw [dif_pos ⟨le_rfl, by omega, hidx, hmem⟩]
    by_cases h : rest ≠ [] ∧ k ≤ nid
    · rw [if_pos h]
      have : nid = k := le_antisymm hnid h.2
      subst this
      rw [forbid_specX hk hlen rest _ h.1 (hrest h)]
      congr 1
      funext r c
      rw [hM2 r c]
      have hun : forbX prm.nC (freeCols aP nid) ⟨nid, hk⟩ ((nid, na) :: rest) ((freeCols aP nid).get (c.cast hlen.symm)) ↔
          ((freeCols aP nid).get (c.cast hlen.symm) = na ⟨nid, hk⟩ ∨ (prm.nC ≤ (freeCols aP nid).idxOf (na ⟨nid, hk⟩) ∧
            prm.nC ≤ (freeCols aP nid).idxOf ((freeCols aP nid).get (c.cast hlen.symm)))) ∨
          forbX prm.nC (freeCols aP nid) ⟨nid, hk⟩ rest ((freeCols aP nid).get (c.cast hlen.symm)) := by
        simp only [forbX, h, ne_eq, not_false_eq_true, le_refl, and_self, true_and]
      by_cases hr : r.val = 0
      · by_cases h1 : forbX prm.nC (freeCols aP nid) ⟨nid, hk⟩ rest ((freeCols aP nid).get (c.cast hlen.symm))
        · rw [if_pos ⟨hr, h1⟩, if_pos ⟨hr, hun.2 (Or.inr h1)⟩]
        · rw [if_neg (fun h' => h1 h'.2)]
          refine if_congr (and_congr_right fun _ => ?_) rfl rfl
          rw [hun]
          exact (or_iff_left h1).symm
      · rw [if_neg (fun h' => hr h'.1), if_neg (fun h' => hr h'.1), if_neg (fun h' => hr h'.1)]
    · rw [if_neg h]
      congr 1
      funext r c
      rw [hM2 r c]
      refine if_congr (and_congr_right fun _ => ?_) rfl rfl
      simp only [forbX, h, false_and, or_false]

theorem idxOf_filter_le {α : Type*} [DecidableEq α] (p : α → Bool) (c : α) : ∀ l : List α, c ∈ l.filter p → (l.filter p).idxOf c ≤ l.idxOf c
  | [], h => by simp at h
  | a :: l, h => by
    by_cases hp : p a = true
    · rw [List.filter_cons_of_pos hp] at h ⊢
      by_cases hac : a = c
      · subst hac; simp
      · rw [List.idxOf_cons_ne _ hac, List.idxOf_cons_ne _ hac]
        exact Nat.succ_le_succ (idxOf_filter_le p c l (by
          rcases List.mem_cons.1 h with h | h
          · exact absurd h.symm hac
          · exact h))
    · rw [List.filter_cons_of_neg hp] at h ⊢
      have hac : a ≠ c := by
        rintro rfl
        exact hp (List.of_mem_filter h)
      rw [List.idxOf_cons_ne _ hac]
      exact Nat.le_succ_of_le (idxOf_filter_le p c l h)

theorem idxOf_freeCols_le {aP : Fin n → Fin n} {k : Nat} {c : Fin n} (h : c ∈ freeCols aP k) : (freeCols aP k).idxOf c ≤ c.val := by
  refine (idxOf_filter_le _ c _ h).trans (le_of_eq ?_)
  exact List.idxOf_finRange c

/-- The entries of the matrix that stand for something: a real row with a real column or its own dummy column, a dummy row with a dummy column or its own real column. -/
def Good (prm : Prm K n) (i j : Fin n) : Prop :=
  if i.val < prm.nR then j.val < prm.nC ∨ j.val = prm.nC + i.val else prm.nC ≤ j.val ∨ j.val + prm.nR = i.val

def GoodAll (prm : Prm K n) (a : Fin n → Fin n) : Prop := ∀ i, Good prm i (a i)

def GoodPre (prm : Prm K n) (k : Nat) (a : Fin n → Fin n) : Prop := ∀ i : Fin n, i.val < k → Good prm i (a i)

/-- What is needed of the matrix and the big number. -/
structure Ext (prm : Prm K n) (bot lo hi : K) : Prop where
  n_eq : prm.nR + prm.nC = n
  nC_pos : 0 < prm.nC
  nR_pos : 0 < prm.nR
  le : ∀ i j, prm.C i j ≤ hi
  ge : ∀ i j, bot ≤ prm.C i j
  bad : ∀ i j, ¬ Good prm i j → prm.C i j ≤ bot
  diag : ∀ i j : Fin n, i.val < prm.nR → j.val = prm.nC + i.val → lo ≤ prm.C i j
  low : ∀ i j : Fin n, prm.nR ≤ i.val → Good prm i j → lo ≤ prm.C i j
  lo_le : lo ≤ 0
  hi_ge : 0 ≤ hi
  bot_le : bot ≤ 0
  big : n * (hi - lo) + n * tolE < prm.big + 2 * bot

/-- With good assignments only, the extra columns make no difference to good assignments. -/
theorem forbX_good {prm : Prm K n} {aP : Fin n → Fin n} {k : Nat} (hk : k < n) (hkR : k < prm.nR) {c : Fin n} (hc : c ∈ freeCols aP k) (hcg : Good prm ⟨k, hk⟩ c) :
    ∀ chain : List (Nat × (Fin n → Fin n)), (∀ e ∈ chain, GoodAll prm e.2) → ChainOK k aP chain →
      (forbX prm.nC (freeCols aP k) ⟨k, hk⟩ chain c ↔ c ∈ forb ⟨k, hk⟩ chain)
  | [], _, _ => by simp [forbX, forb]
  | (nid, na) :: rest, hg, hok => by
    obtain ⟨hnid, hagree, hna, hrest⟩ := hok
    have hmem : na ⟨k, hk⟩ ∈ freeCols aP k := by
      rw [mem_freeCols]
      intro i hi e
      rw [← hagree i hi] at e
      have := hna.1 e
      rw [this] at hi; simp at hi
    have hextra : (prm.nC ≤ (freeCols aP k).idxOf (na ⟨k, hk⟩) ∧ prm.nC ≤ (freeCols aP k).idxOf c) → c = na ⟨k, hk⟩ := by
      rintro ⟨h1, h2⟩
      have h3 := idxOf_freeCols_le hmem
      have h4 := idxOf_freeCols_le hc
      have h5 := hg (nid, na) (List.mem_cons_self ..) ⟨k, hk⟩
      unfold Good at h5 hcg
      rw [if_pos hkR] at h5 hcg
      simp only at h5 hcg
      apply Fin.ext
      omega
    simp only [forbX, forb, List.mem_cons]
    by_cases h : rest ≠ [] ∧ k ≤ nid
    · have ih := forbX_good hk hkR hc hcg rest (fun e he => hg e (List.mem_cons_of_mem _ he)) (hrest h)
      simp only [h, ih, ne_eq, not_false_eq_true, and_self, true_and, if_true]
      constructor
      · rintro ((h1 | h1) | h1)
        · exact Or.inl h1
        · exact Or.inl (hextra h1)
        · exact Or.inr h1
      · rintro (h1 | h1)
        · exact Or.inl (Or.inl h1)
        · exact Or.inr h1
    · simp only [h, false_and, or_false, if_false, List.not_mem_nil]
      exact ⟨fun h1 => h1.elim id hextra, Or.inl⟩

theorem inSetX_good {prm : Prm K n} {aP : Fin n → Fin n} {k : Nat} (hkR : k < prm.nR) {chain : List (Nat × (Fin n → Fin n))} (hg : ∀ e ∈ chain, GoodAll prm e.2)
    (hok : ChainOK k aP chain) {σ : Fin n → Fin n} (hσ : GoodAll prm σ) : InSetX prm.nC k aP chain σ ↔ InSet k aP chain σ := by
  unfold InSetX InSet
  refine and_congr_right fun hb => and_congr_right fun ha => forall_congr' fun hk => not_congr ?_
  refine forbX_good hk hkR ?_ (hσ _) chain hg hok
  rw [mem_freeCols]
  intro i hi e
  rw [← ha i hi] at e
  have := congrArg Fin.val (hb.1 e)
  simp only at this; omega

theorem freeCols_congr {k : Nat} {aP aQ : Fin n → Fin n} (h : ∀ i : Fin n, i.val < k → aP i = aQ i) : freeCols aP k = freeCols aQ k := by
  unfold freeCols
  congr 1
  funext j
  congr 1
  exact propext (forall_congr' fun i => forall_congr' fun hi => by rw [h i hi])

theorem inSetX_congr {nC k : Nat} {aP aQ : Fin n → Fin n} (h : ∀ i : Fin n, i.val < k → aP i = aQ i)
    {chain} {σ : Fin n → Fin n} : InSetX nC k aP chain σ ↔ InSetX nC k aQ chain σ := by
  unfold InSetX
  rw [freeCols_congr h]
  refine and_congr_right fun _ => and_congr_left fun _ => ?_
  exact forall_congr' fun i => forall_congr' fun hi => by rw [h i hi]

theorem child_subX {nC : Nat} {p : Node K n} (hp : InSetX nC p.id p.a p.chain p.a) {k : Nat} (hk : p.id ≤ k) (hkn : k < n)
    {σ : Fin n → Fin n} (h : InSetX nC k p.a ((p.id, p.a) :: p.chain) σ) : InSetX nC p.id p.a p.chain σ := by
  have h3 := h.2.2 hkn
  refine ⟨h.1, fun i hi => h.2.1 i (by omega), fun hid => ?_⟩
  by_cases e : p.id = k
  · subst e
    cases hc : p.chain with
    | nil => simp [forbX]
    | cons c cs =>
      rw [hc] at h3
      intro hx
      exact h3 (Or.inr ⟨⟨by simp, le_rfl⟩, hx⟩)
  · have : σ ⟨p.id, hid⟩ = p.a ⟨p.id, hid⟩ := h.2.1 _ (by simp only; omega)
    rw [this]
    exact hp.2.2 hid

/-! ### The permutation of an association -/

section ext
variable {nR nC : Nat}

/-- An association: each real row has at most one real column and vice versa. -/
def IsInj (A : Fin nR → Option (Fin nC)) : Prop := ∀ r r' c, A r = some c → A r' = some c → r = r'

open Classical in
/-- A permutation that stands for an association. -/
noncomputable def ext (hn : nR + nC = n) (A : Fin nR → Option (Fin nC)) : Fin n → Fin n := fun i =>
  if h : i.val < nR then
    match A ⟨i.val, h⟩ with
    | some c => ⟨c.val, by omega⟩
    | none => ⟨nC + i.val, by omega⟩
  else if h2 : ∃ r, A r = some ⟨i.val - nR, by omega⟩ then ⟨nC + (Classical.choose h2).val, by have := (Classical.choose h2).2; omega⟩
  else ⟨i.val - nR, by omega⟩

theorem ext_cases (hn : nR + nC = n) {A : Fin nR → Option (Fin nC)} (hA : IsInj A) (i : Fin n) :
    (∃ (h : i.val < nR) (c : Fin nC), A ⟨i.val, h⟩ = some c ∧ (ext hn A i).val = c.val) ∨
    (∃ h : i.val < nR, A ⟨i.val, h⟩ = none ∧ (ext hn A i).val = nC + i.val) ∨
    (∃ (h : nR ≤ i.val) (r : Fin nR), A r = some ⟨i.val - nR, by omega⟩ ∧ (ext hn A i).val = nC + r.val) ∨
    (∃ h : nR ≤ i.val, (∀ r, A r ≠ some ⟨i.val - nR, by omega⟩) ∧ (ext hn A i).val = i.val - nR) := by
  by_cases h : i.val < nR
  · cases hA' : A ⟨i.val, h⟩ with
    | some c => exact Or.inl ⟨h, c, hA', by unfold ext; rw [dif_pos h]; simp [hA']⟩
    | none => exact Or.inr (Or.inl ⟨h, hA', by unfold ext; rw [dif_pos h]; simp [hA']⟩)
  · by_cases h2 : ∃ r, A r = some ⟨i.val - nR, by omega⟩
    · exact Or.inr (Or.inr (Or.inl ⟨by omega, Classical.choose h2, Classical.choose_spec h2, by unfold ext; rw [dif_neg h, dif_pos h2]⟩))
    · exact Or.inr (Or.inr (Or.inr ⟨by omega, fun r hr => h2 ⟨r, hr⟩, by unfold ext; rw [dif_neg h, dif_neg h2]⟩))

theorem ext_bij (hn : nR + nC = n) {A : Fin nR → Option (Fin nC)} (hA : IsInj A) : Function.Bijective (ext hn A) := by
  rw [← Finite.injective_iff_bijective]
  intro i j e
  have e' := congrArg Fin.val e
  rcases ext_cases hn hA i with ⟨h, c, h1, h2⟩ | ⟨h, h1, h2⟩ | ⟨h, r, h1, h2⟩ | ⟨h, h1, h2⟩ <;>
    rcases ext_cases hn hA j with ⟨g, d, g1, g2⟩ | ⟨g, g1, g2⟩ | ⟨g, s, g1, g2⟩ | ⟨g, g1, g2⟩
  · have : c = d := Fin.ext (by omega)
    subst this
    have := hA _ _ _ h1 g1
    exact Fin.ext (by simpa using congrArg Fin.val this)
  · have := c.2; omega
  · have := c.2; omega
  · exfalso
    have : c = ⟨j.val - nR, by omega⟩ := Fin.ext (by simp only; omega)
    exact g1 _ (by rw [h1, this])
  · have := d.2; omega
  · exact Fin.ext (by omega)
  · exfalso
    have : (⟨i.val, h⟩ : Fin nR) = s := Fin.ext (by simp only; omega)
    rw [this, g1] at h1; cases h1
  · have := j.2; omega
  · have := d.2; omega
  · exfalso
    have : (⟨j.val, g⟩ : Fin nR) = r := Fin.ext (by simp only; omega)
    rw [this, h1] at g1; cases g1
  · have : r = s := Fin.ext (by omega)
    subst this
    rw [h1] at g1
    have := congrArg Fin.val (Option.some.inj g1)
    simp only at this
    exact Fin.ext (by omega)
  · have := j.2; omega
  · exfalso
    have : d = ⟨i.val - nR, by omega⟩ := Fin.ext (by simp only; omega)
    exact h1 _ (by rw [g1, this])
  · have := i.2; omega
  · have := i.2; omega
  · exact Fin.ext (by omega)

/-- The association of a permutation. -/
def assoc (nR nC : Nat) (hn : nR + nC = n) (a : Fin n → Fin n) : Fin nR → Option (Fin nC) := fun r =>
  if h : (a ⟨r.val, by omega⟩).val < nC then some ⟨_, h⟩ else none

theorem assoc_inj (hn : nR + nC = n) {a : Fin n → Fin n} (ha : Function.Injective a) : IsInj (assoc nR nC hn a) := by
  intro r r' c h1 h2
  unfold assoc at h1 h2
  split at h1
  · split at h2
    · rw [← Option.some.inj h2] at h1
      have h3 := congrArg Fin.val (Option.some.inj h1)
      simp only at h3
      have := congrArg Fin.val (ha (Fin.ext h3))
      exact Fin.ext (by simpa using this)
    · cases h2
  · cases h1

theorem assoc_ext (hn : nR + nC = n) {A : Fin nR → Option (Fin nC)} (hA : IsInj A) : assoc nR nC hn (ext hn A) = A := by
  funext r
  unfold assoc
  rcases ext_cases hn hA ⟨r.val, by omega⟩ with ⟨h, c, h1, h2⟩ | ⟨h, h1, h2⟩ | ⟨h, s, h1, h2⟩ | ⟨h, h1, h2⟩
  · rw [dif_pos (by rw [h2]; exact c.2)]
    have h1' : A r = some c := h1
    rw [h1']
    congr 1
    exact Fin.ext h2
  · rw [dif_neg (by rw [h2]; omega)]
    exact (show A r = none from h1).symm
  · have := r.2; simp only at h; omega
  · have := r.2; simp only at h; omega

end ext

theorem ext_good {prm : Prm K n} (hn : prm.nR + prm.nC = n) {A : Fin prm.nR → Option (Fin prm.nC)} (hA : IsInj A) : GoodAll prm (ext hn A) := by
  intro i
  unfold Good
  rcases ext_cases hn hA i with ⟨h, c, h1, h2⟩ | ⟨h, h1, h2⟩ | ⟨h, r, h1, h2⟩ | ⟨h, h1, h2⟩
  · rw [if_pos h]; left; rw [h2]; exact c.2
  · rw [if_pos h]; right; exact h2
  · rw [if_neg (by omega)]; left; omega
  · rw [if_neg (by omega)]; right; omega

/-- Good permutations with the same association agree on the real rows. -/
theorem assoc_agree {prm : Prm K n} (hn : prm.nR + prm.nC = n) {σ τ : Fin n → Fin n} (hσ : GoodAll prm σ) (hτ : GoodAll prm τ) :
    assoc prm.nR prm.nC hn σ = assoc prm.nR prm.nC hn τ ↔ ∀ i : Fin n, i.val < prm.nR → σ i = τ i := by
  constructor
  · intro h i hi
    have h1 := congrFun h ⟨i.val, hi⟩
    have g1 := hσ i
    have g2 := hτ i
    unfold Good at g1 g2
    rw [if_pos hi] at g1 g2
    unfold assoc at h1
    apply Fin.ext
    by_cases c1 : (σ i).val < prm.nC
    · rw [dif_pos c1] at h1
      by_cases c2 : (τ i).val < prm.nC
      · rw [dif_pos c2] at h1
        simpa using h1
      · rw [dif_neg c2] at h1; cases h1
    · rw [dif_neg c1] at h1
      by_cases c2 : (τ i).val < prm.nC
      · rw [dif_pos c2] at h1; cases h1
      · omega
  · intro h
    funext r
    unfold assoc
    rw [h _ (by exact r.2)]

/-- With good assignments in the rows before `k`, each column that is free can be given to row `k` without much loss. -/
theorem completion {prm : Prm K n} {bot lo hi : K} (hE : Ext prm bot lo hi) {aP : Fin n → Fin n} (ha : Function.Bijective aP) {k : Nat} (hkn : k < n) (hkR : k < prm.nR)
    (hpre : GoodPre prm k aP) (j : Fin n) (hj : j ∈ freeCols aP k) : ∃ σ : Fin n → Fin n, Function.Bijective σ ∧ (∀ i : Fin n, i.val < k → σ i = aP i) ∧
      σ ⟨k, hkn⟩ = j ∧ n * lo + 2 * bot ≤ ∑ i : Fin n, if i.val < k then 0 else prm.C i (σ i) := by
  classical
  have hn := hE.n_eq
  let A : Fin prm.nR → Option (Fin prm.nC) := fun r => if r.val < k then assoc prm.nR prm.nC hn aP r else none
  have hA : IsInj A := by
    intro r r' c h1 h2
    simp only [A] at h1 h2
    split at h1
    · split at h2
      · exact assoc_inj hn ha.1 r r' c h1 h2
      · cases h2
    · cases h1
  let β := ext hn A
  have hβ : Function.Bijective β := ext_bij hn hA
  have hβg : GoodAll prm β := ext_good hn hA
  have hβpre : ∀ i : Fin n, i.val < k → β i = aP i := by
    intro i hi
    have hiR : i.val < prm.nR := by omega
    have hg := hpre i hi
    unfold Good at hg
    rw [if_pos hiR] at hg
    apply Fin.ext
    have hAi : A ⟨i.val, hiR⟩ = assoc prm.nR prm.nC hn aP ⟨i.val, hiR⟩ := if_pos hi
    rcases ext_cases hn hA i with ⟨h, c, h1, h2⟩ | ⟨h, h1, h2⟩ | ⟨h, r, h1, h2⟩ | ⟨h, h1, h2⟩
    · rw [h1] at hAi
      unfold assoc at hAi
      split at hAi
      · have := congrArg Fin.val (Option.some.inj hAi)
        simp only at this
        exact h2.trans this
      · cases hAi
    · rw [h1] at hAi
      unfold assoc at hAi
      split at hAi
      · cases hAi
      · rename_i hc
        simp only at hc
        show (ext hn A i).val = _
        rw [h2]
        rcases hg with hg | hg
        · exact absurd hg hc
        · exact hg.symm
    · omega
    · omega
  have hβk : ∀ i : Fin n, k ≤ i.val → i.val < prm.nR → (β i).val = prm.nC + i.val := by
    intro i h1 h2
    have hAi : A ⟨i.val, h2⟩ = none := if_neg (by simp only; omega)
    rcases ext_cases hn hA i with ⟨h, c, h1, h2⟩ | ⟨h, h1, h2⟩ | ⟨h, r, h1, h2⟩ | ⟨h, h1, h2⟩
    · rw [h1] at hAi; cases hAi
    · exact h2
    · omega
    · omega
  obtain ⟨i0, hi0⟩ := hβ.2 j
  have hi0k : k ≤ i0.val := by
    by_contra hc
    rw [mem_freeCols] at hj
    exact hj i0 (by omega) (by rw [← hβpre i0 (by omega), hi0])
  let σ : Fin n → Fin n := fun i => β (Equiv.swap ⟨k, hkn⟩ i0 i)
  refine ⟨σ, hβ.comp (Equiv.bijective _), ?_, ?_, ?_⟩
  · intro i hi
    show β (Equiv.swap ⟨k, hkn⟩ i0 i) = _
    rw [Equiv.swap_apply_of_ne_of_ne (fun e => by rw [e] at hi; simp at hi) (fun e => by rw [e] at hi; omega)]
    exact hβpre i hi
  · show β (Equiv.swap ⟨k, hkn⟩ i0 ⟨k, hkn⟩) = j
    rw [Equiv.swap_apply_left, hi0]
  · have hterm : ∀ i : Fin n, (lo + ((if i = ⟨k, hkn⟩ then bot else 0) + (if i = i0 then bot else 0))) ≤ if i.val < k then 0 else prm.C i (σ i) := by
      intro i
      have hb := hE.bot_le
      have hl := hE.lo_le
      by_cases hik : i.val < k
      · rw [if_pos hik]
        split_ifs <;> linarith
      · rw [if_neg hik]
        by_cases h1 : i = ⟨k, hkn⟩
        · rw [if_pos h1]
          have := hE.ge i (σ i)
          split_ifs <;> linarith
        · rw [if_neg h1]
          by_cases h2 : i = i0
          · rw [if_pos h2]
            have := hE.ge i (σ i)
            linarith
          · rw [if_neg h2]
            have hσi : σ i = β i := by
              show β (Equiv.swap ⟨k, hkn⟩ i0 i) = _
              rw [Equiv.swap_apply_of_ne_of_ne h1 h2]
            rw [hσi]
            simp only [add_zero]
            by_cases h3 : i.val < prm.nR
            · exact hE.diag i _ h3 (hβk i (by omega) h3)
            · exact hE.low i _ (by omega) (hβg i)
    refine le_trans (le_of_eq ?_) (Finset.sum_le_sum fun i _ => hterm i)
    rw [Finset.sum_add_distrib, Finset.sum_add_distrib]
    simp only [Finset.sum_const, Finset.card_univ, Fintype.card_fin, nsmul_eq_mul, Finset.sum_ite_eq', Finset.mem_univ, if_true]
    ring

/-! ### One child -/

structure NodeB (prm : Prm K n) (x : Node K n) : Prop where
  bij : Function.Bijective x.a
  score : x.s = total prm.C x.a
  chain : ChainOK x.id x.a x.chain
  id_lt : x.id < prm.nR

theorem childX_chainOK {prm : Prm K n} {p : Node K n} (hp : NodeB prm p) {k : Nat} (hk : p.id ≤ k) :
    ChainOK k p.a ((p.id, p.a) :: p.chain) := by
  refine ⟨hk, fun _ _ => rfl, hp.bij, fun h => ?_⟩
  have : p.id = k := le_antisymm hk h.2
  rw [← this]; exact hp.chain

theorem childX_spec {prm : Prm K n} {bot lo hi : K} (hE : Ext prm bot lo hi)
    (hf : n * (n + 1) < prm.fuel) {p : Node K n} (hp : NodeB prm p) {k : Nat} (hk : p.id ≤ k) (hkR : k < prm.nR) :
    (child prm p k = .impossible ∧ ∀ σ, ¬ InSetX prm.nC k p.a ((p.id, p.a) :: p.chain) σ) ∨
    ∃ x, child prm p k = .node x ∧ NodeB prm x ∧ x.id = k ∧ x.chain = (p.id, p.a) :: p.chain ∧ (∀ i : Fin n, i.val < k → x.a i = p.a i) ∧
      (GoodPre prm k p.a → InSetX prm.nC x.id x.a x.chain x.a ∧ ∀ σ, InSetX prm.nC x.id x.a x.chain σ → total prm.C σ ≤ x.s + n * tolE) := by
  classical
  have hn := hE.n_eq
  have hkn : k < n := by omega
  have hlen := length_freeCols hp.bij hkn.le
  have hch := childX_chainOK hp hk
  have hfs := forbid_specX (prm := prm) hkn hlen ((p.id, p.a) :: p.chain)
    (fun r c => prm.C ⟨k + r.val, by omega⟩ ((freeCols p.a k).get (c.cast hlen.symm))) (by simp) hch
  have hm : 0 < n - k := by omega
  have hn0 : (0 : K) ≤ n := Nat.cast_nonneg n
  have htol : (0 : K) < tolE := tolE_pos
  have hbig : -prm.big < bot := by
    have h1 := hE.big
    have h2 : (0 : K) ≤ n * (hi - lo) := mul_nonneg hn0 (by linarith [hE.lo_le, hE.hi_ge])
    have h4 : (0 : K) ≤ n * tolE := mul_nonneg hn0 htol.le
    have := hE.bot_le
    linarith
  set F := forbX prm.nC (freeCols p.a k) ⟨k, hkn⟩ ((p.id, p.a) :: p.chain) with hF
  generalize hM0 : (fun (r : Fin (n - k)) (c : Fin (n - k)) => if r.val = 0 ∧ F ((freeCols p.a k).get (c.cast hlen.symm))
    then -prm.big else prm.C ⟨k + r.val, by omega⟩ ((freeCols p.a k).get (c.cast hlen.symm))) = M at hfs
  have hM : ∀ r c, M r c = if r.val = 0 ∧ F ((freeCols p.a k).get (c.cast hlen.symm))
    then -prm.big else prm.C ⟨k + r.val, by omega⟩ ((freeCols p.a k).get (c.cast hlen.symm)) := by
    intro r c; rw [← hM0]
  unfold child
  simp only
  rw [dif_pos ⟨hlen, hkn⟩]
  simp only [hfs]
  have hne : ∀ c : Fin (n - k), M ⟨0, hm⟩ c ≠ -prm.big ↔ ¬ F ((freeCols p.a k).get (c.cast hlen.symm)) := by
    intro c
    simp only [hM, true_and]
    by_cases h : F ((freeCols p.a k).get (c.cast hlen.symm))
    · simp only [h, if_true]; simp
    · simp only [h, if_false, not_false_eq_true, iff_true]
      exact ne_of_gt (lt_of_lt_of_le hbig (hE.ge _ _))
  have hset : ∀ τ : Fin (n - k) → Fin (n - k), Function.Bijective τ →
      (InSetX prm.nC k p.a ((p.id, p.a) :: p.chain) (merge p.a hlen τ) ↔
        ¬ F ((freeCols p.a k).get ((τ ⟨0, hm⟩).cast hlen.symm))) := by
    intro τ hτ
    have e := merge_add (aP := p.a) (hlen := hlen) (soln := τ) ⟨0, hm⟩
    constructor
    · intro h
      have := h.2.2 hkn
      rw [← e]; exact this
    · intro h
      refine ⟨merge_bij hp.bij hτ, fun i hi => merge_lt hi, fun _ => ?_⟩
      rw [← e] at h; exact h
  by_cases hex : ∃ c : Fin (n - k), M ⟨0, hm⟩ c ≠ -prm.big
  · right
    rw [if_pos hex]
    have hf' : (n - k) * ((n - k) + 1) < prm.fuel :=
      lt_of_le_of_lt (Nat.mul_le_mul (by omega) (by omega)) hf
    obtain ⟨soln, e, hbij, hopt, -⟩ := Hungarian.run_spec M true prm.fuel hf'
    simp only [e]
    simp only [if_true] at hopt
    have hMval : ∀ τ : Fin (n - k) → Fin (n - k), ¬ F ((freeCols p.a k).get ((τ ⟨0, hm⟩).cast hlen.symm)) →
        ∑ r, M r (τ r) = ∑ r : Fin (n - k), prm.C ⟨k + r.val, by omega⟩ ((freeCols p.a k).get ((τ r).cast hlen.symm)) := by
      intro τ hτ
      refine Finset.sum_congr rfl fun r _ => ?_
      simp only [hM]
      rw [if_neg]
      rintro ⟨h0, h1⟩
      have : r = ⟨0, hm⟩ := Fin.ext h0
      subst this; exact hτ h1
    have hscore : (∑ r : Fin (n - k), prm.C ⟨k + r.val, by omega⟩ (merge p.a hlen soln ⟨k + r.val, by omega⟩)) +
        (∑ i : Fin n, if i.val < k then prm.C i (p.a i) else 0) = total prm.C (merge p.a hlen soln) := by
      rw [total_merge _ hkn.le]
      congr 1
      exact Finset.sum_congr rfl fun r _ => by rw [merge_add]
    have hagree : ∀ i : Fin n, i.val < k → p.a i = merge p.a hlen soln i := fun i hi => (merge_lt hi).symm
    refine ⟨_, rfl, ⟨merge_bij (hlen := hlen) hp.bij hbij, hscore, chainOK_congr hagree hch, hkR⟩, rfl, rfl, fun i hi => (hagree i hi).symm, ?_⟩
    intro hpre
    -- the solver avoids the forbidden columns
    have havoid : ¬ F ((freeCols p.a k).get ((soln ⟨0, hm⟩).cast hlen.symm)) := by
      intro hbad
      obtain ⟨c, hc⟩ := hex
      rw [hne] at hc
      obtain ⟨σ, s1, s2, s3, s4⟩ := completion hE hp.bij hkn hkR hpre ((freeCols p.a k).get (c.cast hlen.symm)) (List.get_mem _ _)
      obtain ⟨τ, hτ, hτσ⟩ := exists_reduced hlen s1 s2
      have hτ0 : (freeCols p.a k).get ((τ ⟨0, hm⟩).cast hlen.symm) = (freeCols p.a k).get (c.cast hlen.symm) := by
        rw [← s3, ← hτσ]
        exact (merge_add (aP := p.a) (hlen := hlen) (soln := τ) ⟨0, hm⟩).symm
      have h1 := hopt τ hτ
      rw [hMval τ (by rw [hτ0]; exact hc)] at h1
      have h2 : n * lo + 2 * bot ≤
          ∑ r : Fin (n - k), prm.C ⟨k + r.val, by omega⟩ ((freeCols p.a k).get ((τ r).cast hlen.symm)) := by
        refine s4.trans (le_of_eq ?_)
        rw [sum_split hkn.le]
        have hz : (∑ i : Fin n, if i.val < k then (if i.val < k then 0 else prm.C i (σ i)) else 0) = 0 :=
          Finset.sum_eq_zero fun i _ => by split_ifs <;> rfl
        rw [hz, add_zero]
        refine Finset.sum_congr rfl fun r _ => ?_
        rw [if_neg (by simp only; omega), ← hτσ, merge_add]
      have h3 : ∑ r, M r (soln r) ≤ -prm.big + ((n - k : ℕ) - 1 : K) * hi := by
        rw [← Finset.add_sum_erase _ _ (Finset.mem_univ (⟨0, hm⟩ : Fin (n - k)))]
        have e0 : M ⟨0, hm⟩ (soln ⟨0, hm⟩) = -prm.big := by
          by_contra hcon
          exact (hne _).1 hcon hbad
        rw [e0]
        have := Finset.sum_le_card_nsmul ((Finset.univ : Finset (Fin (n - k))).erase ⟨0, hm⟩)
          (fun r => M r (soln r)) hi (fun r hr => by
            have hr0 : r ≠ ⟨0, hm⟩ := Finset.ne_of_mem_erase hr
            simp only [hM]
            rw [if_neg (fun h => hr0 (Fin.ext h.1))]
            exact hE.le _ _)
        rw [Finset.card_erase_of_mem (Finset.mem_univ _)] at this
        simp only [Finset.card_univ, Fintype.card_fin, nsmul_eq_mul] at this
        rw [Nat.cast_sub (by omega), Nat.cast_one] at this
        linarith
      have h4 : ((n - k : ℕ) : K) ≤ n := by exact_mod_cast Nat.sub_le n k
      have h6 : ((n - k : ℕ) : K) * tolE ≤ n * tolE := mul_le_mul_of_nonneg_right h4 htol.le
      have h8 : ((n - k : ℕ) - 1 : K) * hi ≤ n * hi := mul_le_mul_of_nonneg_right (by linarith) hE.hi_ge
      have h7 := hE.big
      nlinarith
    have hin := (hset soln hbij).2 havoid
    refine ⟨(inSetX_congr hagree).1 hin, ?_⟩
    intro σ hσ
    have hσ' : InSetX prm.nC k p.a ((p.id, p.a) :: p.chain) σ := (inSetX_congr hagree).2 hσ
    obtain ⟨τ, hτ, rfl⟩ := exists_reduced hlen hσ'.1 hσ'.2.1
    have hτF := (hset τ hτ).1 hσ'
    have h1 := hopt τ hτ
    rw [hMval τ hτF, hMval soln havoid] at h1
    show total prm.C (merge p.a hlen τ) ≤ (∑ r : Fin (n - k), prm.C ⟨k + r.val, by omega⟩
      (merge p.a hlen soln ⟨k + r.val, by omega⟩)) + (∑ i : Fin n, if i.val < k then prm.C i (p.a i) else 0) + n * tolE
    rw [hscore, total_merge _ hkn.le, total_merge _ hkn.le]
    have h4 : ((n - k : ℕ) : K) * tolE ≤ n * tolE :=
      mul_le_mul_of_nonneg_right (by exact_mod_cast Nat.sub_le n k) htol.le
    linarith
  · left
    rw [if_neg hex]
    refine ⟨rfl, fun σ hσ => ?_⟩
    obtain ⟨τ, hτ, rfl⟩ := exists_reduced hlen hσ.1 hσ.2.1
    exact hex ⟨τ ⟨0, hm⟩, (hne _).2 ((hset τ hτ).1 hσ)⟩

/-! ### Nodes of no interest -/

/-- A permutation with an entry that stands for nothing. -/
theorem bad_total {prm : Prm K n} {bot lo hi : K} (hE : Ext prm bot lo hi) {a : Fin n → Fin n} (h : ¬ GoodAll prm a) : total prm.C a ≤ bot + n * hi := by
  unfold GoodAll at h
  push Not at h
  obtain ⟨i, hi'⟩ := h
  unfold total
  rw [← Finset.add_sum_erase _ _ (Finset.mem_univ i)]
  have h1 := hE.bad _ _ hi'
  have h2 := Finset.sum_le_card_nsmul ((Finset.univ : Finset (Fin n)).erase i) (fun r => prm.C r (a r)) hi fun r _ => hE.le _ _
  rw [Finset.card_erase_of_mem (Finset.mem_univ _), Finset.card_univ, Fintype.card_fin, nsmul_eq_mul] at h2
  have h3 : ((n - 1 : ℕ) : K) * hi ≤ n * hi := mul_le_mul_of_nonneg_right (by exact_mod_cast Nat.sub_le n 1) hE.hi_ge
  linarith

/-- Nothing above `B` can come from this node. -/
structure Low (prm : Prm K n) (B : K) (x : Node K n) : Prop where
  basic : NodeB prm x
  low : ¬ GoodPre prm x.id x.a ∨ (InSetX prm.nC x.id x.a x.chain x.a ∧ ∀ σ, InSetX prm.nC x.id x.a x.chain σ → total prm.C σ ≤ B)

theorem Low.score_le {prm : Prm K n} {bot lo hi B : K} (hE : Ext prm bot lo hi) (hB : bot + n * hi ≤ B) {x : Node K n} (h : Low prm B x) : x.s ≤ B := by
  rw [h.basic.score]
  rcases h.low with h | h
  · exact (bad_total hE fun hg => h fun i _ => hg i).trans hB
  · exact h.2 _ h.1

theorem Low.child {prm : Prm K n} {bot lo hi B : K} (hE : Ext prm bot lo hi) (hf : n * (n + 1) < prm.fuel) {p : Node K n} (hp : Low prm B p)
    {k : Nat} (hk : p.id ≤ k) (hkR : k < prm.nR) : Murty.child prm p k = .impossible ∨ ∃ x, Murty.child prm p k = .node x ∧ Low prm B x ∧ x.chain = (p.id, p.a) :: p.chain := by
  rcases childX_spec hE hf hp.basic hk hkR with ⟨h, -⟩ | ⟨x, h1, h2, h3, h4, h5, h6⟩
  · exact Or.inl h
  · refine Or.inr ⟨x, h1, ⟨h2, ?_⟩, h4⟩
    have hn := hE.n_eq
    by_cases hg : GoodPre prm x.id x.a
    · right
      have hg' : GoodPre prm k p.a := by
        intro i hi
        rw [← h5 i hi]
        exact hg i (by omega)
      obtain ⟨g1, -⟩ := h6 hg'
      refine ⟨g1, fun σ hσ => ?_⟩
      rcases hp.low with hl | hl
      · exact absurd (show GoodPre prm p.id p.a from fun i hi => hg' i (by omega)) hl
      · refine hl.2 σ (child_subX hl.1 hk (by omega) ?_)
        rw [h4, h3] at hσ
        exact (inSetX_congr h5).1 hσ
    · exact Or.inl hg

theorem expand_low {prm : Prm K n} {bot lo hi B : K} (hE : Ext prm bot lo hi) (hf : n * (n + 1) < prm.fuel) {p : Node K n} (hp : Low prm B p) (Q : PQ K n) :
    ∀ (ks : List Nat) (h : Q.H), (∀ k ∈ ks, p.id ≤ k ∧ k < prm.nR) →
      ∃ h', expand Q prm p ks h = some h' ∧ ∃ cs : Multiset (Node K n), Q.elems h' = cs + Q.elems h ∧ ∀ x ∈ cs, Low prm B x ∧ x.chain = (p.id, p.a) :: p.chain
  | [], h, _ => ⟨h, rfl, 0, by simp, by simp⟩
  | k :: ks, h, hks => by
    have hk := hks k (by simp)
    rcases hp.child hE hf hk.1 hk.2 with e | ⟨x, e, hx⟩
    · obtain ⟨h', e', cs, h1, h2⟩ := expand_low hE hf hp Q ks h (fun k' hk' => hks k' (by simp [hk']))
      exact ⟨h', by simp only [expand, e, e'], cs, h1, h2⟩
    · obtain ⟨h', e', cs, h1, h2⟩ := expand_low hE hf hp Q ks (Q.push h x) (fun k' hk' => hks k' (by simp [hk']))
      refine ⟨h', by simp only [expand, e, e'], x ::ₘ cs, by rw [h1, Q.elems_push]; simp, ?_⟩
      intro y hy
      rcases Multiset.mem_cons.1 hy with rfl | hy
      · exact hx
      · exact h2 y hy

theorem partitionMax_block {prm : Prm K n} {bot lo hi : K} (hE : Ext prm bot lo hi) : partitionMax prm = prm.nR := by
  have h1 := hE.n_eq
  have h2 := hE.nC_pos
  unfold partitionMax
  rw [if_neg (by omega)]

theorem mem_parts {m id k : Nat} : k ∈ (List.range m).drop id ↔ id ≤ k ∧ k < m := by
  rw [List.range_eq_range', List.drop_range']
  simp [List.mem_range'_1]; omega

/-- With nothing above `B` left, the calls return nothing above `B`. -/
theorem low_calls {prm : Prm K n} {bot lo hi B : K} (hE : Ext prm bot lo hi) (hB : bot + n * hi ≤ B) (hf : n * (n + 1) < prm.fuel) (Q : PQ K n) :
    ∀ (i : Nat) (st : St K n Q), st.k ≠ 0 → (∀ x ∈ Q.elems st.pq, Low prm B x) →
      call Q prm st i = .noMore ∨ ∃ r a s, call Q prm st i = .found r a s ∧ s ≤ B ∧ Function.Bijective a ∧ s = total prm.C a := by
  have step : ∀ st : St K n Q, st.k ≠ 0 → (∀ x ∈ Q.elems st.pq, Low prm B x) →
      ((findNextBest Q prm st).1 = .noMore ∨ ∃ r a s, (findNextBest Q prm st).1 = .found r a s ∧ s ≤ B ∧ Function.Bijective a ∧ s = total prm.C a) ∧
      (findNextBest Q prm st).2.k ≠ 0 ∧ ∀ x ∈ Q.elems (findNextBest Q prm st).2.pq, Low prm B x := by
    intro st hk hlow
    cases hpop : Q.pop st.pq with
    | none =>
      have e : findNextBest Q prm st = (.noMore, st) := by simp [findNextBest, hk, hpop]
      rw [e]
      exact ⟨Or.inl rfl, hk, hlow⟩
    | some ph =>
      obtain ⟨p, h⟩ := ph
      obtain ⟨hel, -⟩ := Q.pop_some _ p h hpop
      have hp : Low prm B p := hlow p (by rw [hel]; simp)
      obtain ⟨h', e', cs, h1, h2⟩ := expand_low hE hf hp Q ((List.range (partitionMax prm)).drop p.id) h (fun k hk => by
        rw [partitionMax_block hE] at hk
        exact mem_parts.1 hk)
      have hall : ∀ x ∈ Q.elems h', Low prm B x := by
        intro x hx
        rw [h1, Multiset.mem_add] at hx
        rcases hx with hx | hx
        · exact (h2 x hx).1
        · exact hlow x (by rw [hel]; exact Multiset.mem_cons_of_mem hx)
      have hfn : findNextBest Q prm st = (match Q.pop h' with
        | none => (.noMore, { st with pq := h' })
        | some (x, _) => (.found (st.k + 1) x.a x.s, { st with k := st.k + 1, pq := h' })) := by
        unfold findNextBest
        rw [if_neg hk, hpop]
        simp only [e']
        cases Q.pop h' <;> rfl
      cases hpop' : Q.pop h' with
      | none => rw [hpop'] at hfn; rw [hfn]; exact ⟨Or.inl rfl, hk, hall⟩
      | some yh =>
        rw [hpop'] at hfn
        rw [hfn]
        have hy : Low prm B yh.1 := hall yh.1 (by rw [(Q.pop_some _ yh.1 yh.2 hpop').1]; simp)
        exact ⟨Or.inr ⟨_, _, _, rfl, hy.score_le hE hB, hy.basic.bij, hy.basic.score⟩, by simp, hall⟩
  intro i
  induction i with
  | zero => intro st hk hl; exact (step st hk hl).1
  | succ i ih => intro st hk hl; exact ih _ (step st hk hl).2.1 (step st hk hl).2.2

/-! ### Nodes of interest -/

/-- All that was returned on the way to this node stands for something. -/
def Clean (prm : Prm K n) (x : Node K n) : Prop := ∀ e ∈ x.chain, GoodAll prm e.2

structure NodeX (prm : Prm K n) (H : K) (x : Node K n) : Prop where
  basic : NodeB prm x
  clean : Clean prm x → GoodPre prm x.id x.a ∧ InSetX prm.nC x.id x.a x.chain x.a ∧ ∀ σ, InSetX prm.nC x.id x.a x.chain σ → total prm.C σ ≤ x.s + n * tolE
  dirty : ¬ Clean prm x → Low prm H x

def InNodeX (prm : Prm K n) (σ : Fin n → Fin n) (x : Node K n) : Prop := Clean prm x ∧ InSetX prm.nC x.id x.a x.chain σ

def Agree (prm : Prm K n) (σ τ : Fin n → Fin n) : Prop := ∀ i : Fin n, i.val < prm.nR → σ i = τ i

variable {prm : Prm K n} {bot lo hi H : K}

theorem NodeX.low_of_bad (hE : Ext prm bot lo hi) (hH : bot + n * hi + n * tolE ≤ H) {x : Node K n} (h : NodeX prm H x) (hx : ¬ GoodAll prm x.a) : Low prm H x := by
  by_cases hc : Clean prm x
  · obtain ⟨-, h2, h3⟩ := h.clean hc
    refine ⟨h.basic, Or.inr ⟨h2, fun σ hσ => ?_⟩⟩
    have h4 := h3 σ hσ
    have h5 := bad_total hE hx
    rw [← h.basic.score] at h5
    linarith
  · exact h.dirty hc

theorem NodeX.low_of_le {B : K} (hE : Ext prm bot lo hi) (hB : H ≤ B) {x : Node K n} (h : NodeX prm H x) (hx : x.s + n * tolE ≤ B) : Low prm B x := by
  by_cases hc : Clean prm x
  · obtain ⟨-, h2, h3⟩ := h.clean hc
    exact ⟨h.basic, Or.inr ⟨h2, fun σ hσ => (h3 σ hσ).trans hx⟩⟩
  · obtain ⟨h1, h2⟩ := h.dirty hc
    refine ⟨h1, h2.imp id fun h => ⟨h.1, fun σ hσ => (h.2 σ hσ).trans hB⟩⟩

/-- A node above `H` is clean and good. -/
theorem NodeX.high (hE : Ext prm bot lo hi) (hH : bot + n * hi + n * tolE ≤ H) {x : Node K n} (h : NodeX prm H x) (hx : H < x.s) : Clean prm x ∧ GoodAll prm x.a := by
  have hn0 : (0 : K) ≤ n * tolE := mul_nonneg (Nat.cast_nonneg n) tolE_pos.le
  have hB : bot + n * hi ≤ H := by linarith
  constructor
  · by_contra hc
    exact absurd ((h.dirty hc).score_le hE hB) (not_le.2 hx)
  · by_contra hc
    exact absurd ((h.low_of_bad hE hH hc).score_le hE hB) (not_le.2 hx)

/-- The children of a clean node. -/
theorem childX_clean (hE : Ext prm bot lo hi) (hf : n * (n + 1) < prm.fuel) {p : Node K n} (hp : NodeX prm H p) (hc : Clean prm p) (hg : GoodAll prm p.a)
    {k : Nat} (hk : p.id ≤ k) (hkR : k < prm.nR) :
    (child prm p k = .impossible ∧ ∀ σ, GoodAll prm σ → ¬ InSet k p.a ((p.id, p.a) :: p.chain) σ) ∨
    ∃ x, child prm p k = .node x ∧ NodeX prm H x ∧ Clean prm x ∧ ∀ σ, GoodAll prm σ → (InSetX prm.nC x.id x.a x.chain σ ↔ InSet k p.a ((p.id, p.a) :: p.chain) σ) := by
  have hcl : ∀ e ∈ (p.id, p.a) :: p.chain, GoodAll prm e.2 := by
    intro e he
    rcases List.mem_cons.1 he with rfl | he
    · exact hg
    · exact hc e he
  have hch := childX_chainOK hp.basic hk
  rcases childX_spec hE hf hp.basic hk hkR with ⟨h, h'⟩ | ⟨x, h1, h2, h3, h4, h5, h6⟩
  · exact Or.inl ⟨h, fun σ hσ hin => h' σ ((inSetX_good hkR hcl hch hσ).2 hin)⟩
  · have hxc : Clean prm x := by unfold Clean; rw [h4]; exact hcl
    refine Or.inr ⟨x, h1, ⟨h2, fun _ => ?_, fun h => absurd hxc h⟩, hxc, fun σ hσ => ?_⟩
    · refine ⟨fun i hi => ?_, h6 fun i _ => hg i⟩
      rw [h5 i (by omega)]
      exact hg i
    · rw [h4, h3, inSetX_congr h5]
      exact inSetX_good hkR hcl hch hσ

open Classical in
theorem expand_clean (hE : Ext prm bot lo hi) (hf : n * (n + 1) < prm.fuel) {p : Node K n} (hp : NodeX prm H p) (hc : Clean prm p) (hg : GoodAll prm p.a) (Q : PQ K n) :
    ∀ (ks : List Nat) (h : Q.H), (∀ k ∈ ks, p.id ≤ k ∧ k < prm.nR) →
      ∃ h', expand Q prm p ks h = some h' ∧ ∃ cs : Multiset (Node K n), Q.elems h' = cs + Q.elems h ∧ (∀ x ∈ cs, NodeX prm H x) ∧
        ∀ σ, GoodAll prm σ → cs.countP (InNodeX prm σ) = ks.countP (fun k => decide (InSet k p.a ((p.id, p.a) :: p.chain) σ))
  | [], h, _ => ⟨h, rfl, 0, by simp, by simp, by simp⟩
  | k :: ks, h, hks => by
    have hk := hks k (by simp)
    rcases childX_clean hE hf hp hc hg hk.1 hk.2 with ⟨e, hno⟩ | ⟨x, e, hx, hxc, hin⟩
    · obtain ⟨h', e', cs, h1, h2, h3⟩ := expand_clean hE hf hp hc hg Q ks h (fun k' hk' => hks k' (by simp [hk']))
      refine ⟨h', by simp only [expand, e, e'], cs, h1, h2, fun σ hσ => ?_⟩
      rw [h3 σ hσ, List.countP_cons_of_neg]
      simpa using hno σ hσ
    · obtain ⟨h', e', cs, h1, h2, h3⟩ := expand_clean hE hf hp hc hg Q ks (Q.push h x) (fun k' hk' => hks k' (by simp [hk']))
      refine ⟨h', by simp only [expand, e, e'], x ::ₘ cs, by rw [h1, Q.elems_push]; simp, ?_, fun σ hσ => ?_⟩
      · intro y hy
        rcases Multiset.mem_cons.1 hy with rfl | hy
        · exact hx
        · exact h2 y hy
      · rw [Multiset.countP_cons, h3 σ hσ, List.countP_cons]
        congr 1
        have := hin σ hσ
        by_cases hs : InSet k p.a ((p.id, p.a) :: p.chain) σ
        · rw [if_pos ⟨hxc, this.2 hs⟩]; simp [hs]
        · rw [if_neg (fun hcc => hs (this.1 hcc.2))]; simp [hs]

open Classical in
/-- What a clean node stands for is its own assignment and what its children stand for. -/
theorem split_clean (hE : Ext prm bot lo hi) {p : Node K n} (hp : NodeX prm H p) (hc : Clean prm p) (hg : GoodAll prm p.a) (σ : Fin n → Fin n)
    (hσ : Function.Bijective σ) (hσg : GoodAll prm σ) :
    (if InNodeX prm σ p then 1 else 0) = (if Agree prm p.a σ then 1 else 0) +
      ((List.range prm.nR).drop p.id).countP (fun k => decide (InSet k p.a ((p.id, p.a) :: p.chain) σ)) := by
  have hn := hE.n_eq
  have hmem : InSet p.id p.a p.chain p.a := (inSetX_good hp.basic.id_lt hc hp.basic.chain hg).1 (hp.clean hc).2.1
  have hnode : InNodeX prm σ p ↔ InSet p.id p.a p.chain σ := by
    unfold InNodeX
    rw [inSetX_good hp.basic.id_lt hc hp.basic.chain hσg]
    exact and_iff_right hc
  have hsub : ∀ k, p.id ≤ k → ∀ hkn : k < n, InSet k p.a ((p.id, p.a) :: p.chain) σ → InSet p.id p.a p.chain σ ∧ σ ⟨k, hkn⟩ ≠ p.a ⟨k, hkn⟩ := by
    intro k hk hkn h
    have h3 := h.2.2 hkn
    simp only [forb, List.mem_cons, not_or] at h3
    refine ⟨⟨h.1, fun i hi => h.2.1 i (by omega), fun hid => ?_⟩, h3.1⟩
    by_cases e : p.id = k
    · subst e
      cases hcc : p.chain with
      | nil => simp [forb]
      | cons c cs =>
        have := h3.2
        simpa [hcc] using this
    · have : σ ⟨p.id, hid⟩ = p.a ⟨p.id, hid⟩ := h.2.1 _ (by simp only; omega)
      rw [this]
      exact hmem.2.2 hid
  have hnd : ((List.range prm.nR).drop p.id).Nodup := (List.nodup_range).sublist (List.drop_sublist _ _)
  by_cases h1 : InSet p.id p.a p.chain σ
  · rw [if_pos (hnode.2 h1)]
    by_cases h2 : Agree prm p.a σ
    · rw [if_pos h2, List.countP_eq_zero.2]
      intro k hk h
      rw [mem_parts] at hk
      have := (hsub k hk.1 (by omega) (of_decide_eq_true h)).2
      exact this (h2 _ hk.2).symm
    · rw [if_neg h2]
      have hex : ∃ k, ∃ hk : k < n, k < prm.nR ∧ σ ⟨k, hk⟩ ≠ p.a ⟨k, hk⟩ := by
        by_contra hcon
        push Not at hcon
        exact h2 fun i hi => (hcon i.val i.2 hi).symm
      set k0 := Nat.find hex with hk0
      obtain ⟨hk0n, hk0R, hne⟩ := Nat.find_spec hex
      have hmin : ∀ i : Fin n, i.val < k0 → σ i = p.a i := by
        intro i hi
        have := Nat.find_min hex hi
        push Not at this
        exact this i.2 (by omega)
      have hge : p.id ≤ k0 := by
        by_contra hlt
        exact hne (h1.2.1 _ (by simp only; omega))
      rw [countP_unique hnd (mem_parts.2 ⟨hge, hk0R⟩)]
      intro k hk
      rw [mem_parts] at hk
      constructor
      · intro h
        have hneq := (hsub k hk.1 (by omega) h).2
        rcases Nat.lt_trichotomy k k0 with hl | he | hgg
        · exact absurd (hmin ⟨k, by omega⟩ hl) hneq
        · exact he
        · exact absurd (h.2.1 ⟨k0, hk0n⟩ hgg) hne
      · rintro rfl
        refine ⟨hσ, hmin, fun hkn => ?_⟩
        simp only [forb, List.mem_cons, not_or]
        refine ⟨hne, ?_⟩
        split
        · rename_i hcc
          have e : p.id = Nat.find hex := le_antisymm hge hcc.2
          have := h1.2.2 (by omega)
          simp only [e] at this
          exact this
        · simp
  · rw [if_neg (fun h => h1 (hnode.1 h)), if_neg, List.countP_eq_zero.2]
    · intro k hk h
      rw [mem_parts] at hk
      exact h1 (hsub k hk.1 (by omega) (of_decide_eq_true h)).1
    · intro h2
      refine h1 ⟨hσ, fun i hi => ?_, fun hid => ?_⟩
      · exact (h2 i (by have := hp.basic.id_lt; omega)).symm
      · rw [← h2 ⟨p.id, hid⟩ hp.basic.id_lt]
        exact hmem.2.2 hid

open Classical in
/-- The invariant of the queue: `E` are the assignments returned from clean nodes that are not in the queue any more. -/
structure InvX (prm : Prm K n) (H : K) (E : List (Fin n → Fin n)) (m : Multiset (Node K n)) : Prop where
  ok : ∀ x ∈ m, NodeX prm H x
  le : ∀ σ, Function.Bijective σ → GoodAll prm σ → E.countP (fun e => decide (Agree prm e σ)) + m.countP (InNodeX prm σ) ≤ 1
  ge : ∀ σ, Function.Bijective σ → GoodAll prm σ → H < total prm.C σ → 1 ≤ E.countP (fun e => decide (Agree prm e σ)) + m.countP (InNodeX prm σ)

open Classical in
theorem InvX.fresh {E : List (Fin n → Fin n)} {m : Multiset (Node K n)} (h : InvX prm H E m) {x : Node K n} (hx : x ∈ m) (hc : Clean prm x) (hg : GoodAll prm x.a) :
    ∀ e ∈ E, ¬ Agree prm e x.a := by
  intro e he hag
  have h1 := h.le x.a (h.ok x hx).basic.bij hg
  have h2 : 0 < E.countP (fun e => decide (Agree prm e x.a)) := List.countP_pos_iff.2 ⟨e, he, decide_eq_true hag⟩
  have h3 : 0 < m.countP (InNodeX prm x.a) := Multiset.countP_pos.2 ⟨x, hx, hc, ((h.ok x hx).clean hc).2.1⟩
  omega

open Classical in
theorem InvX.find {E : List (Fin n → Fin n)} {m : Multiset (Node K n)} (h : InvX prm H E m) {σ : Fin n → Fin n} (hσ : Function.Bijective σ) (hg : GoodAll prm σ)
    (hH : H < total prm.C σ) (hE : ∀ e ∈ E, ¬ Agree prm e σ) : ∃ x ∈ m, InNodeX prm σ x := by
  have h1 := h.ge σ hσ hg hH
  rw [List.countP_eq_zero.2 (fun e he => by simpa using hE e he)] at h1
  exact Multiset.countP_pos.1 (by omega)

open Classical in
theorem InvX.step (hE : Ext prm bot lo hi) (hf : n * (n + 1) < prm.fuel) (Q : PQ K n) {E : List (Fin n → Fin n)} {hq h : Q.H} {p : Node K n}
    (hel : Q.elems hq = p ::ₘ Q.elems h) (hinv : InvX prm H E (Q.elems hq)) (hc : Clean prm p) (hg : GoodAll prm p.a) :
    ∃ h', expand Q prm p ((List.range (partitionMax prm)).drop p.id) h = some h' ∧ InvX prm H (p.a :: E) (Q.elems h') := by
  have hp : NodeX prm H p := hinv.ok p (by rw [hel]; simp)
  rw [partitionMax_block hE]
  obtain ⟨h', e', cs, h1, h2, h3⟩ := expand_clean hE hf hp hc hg Q ((List.range prm.nR).drop p.id) h fun k hk => mem_parts.1 hk
  have hcount : ∀ σ, Function.Bijective σ → GoodAll prm σ → (p.a :: E).countP (fun e => decide (Agree prm e σ)) + (Q.elems h').countP (InNodeX prm σ) =
      E.countP (fun e => decide (Agree prm e σ)) + (Q.elems hq).countP (InNodeX prm σ) := by
    intro σ hσ hσg
    have h4 := split_clean hE hp hc hg σ hσ hσg
    rw [h1, hel, Multiset.countP_add, h3 σ hσg, List.countP_cons, Multiset.countP_cons, h4]
    simp only [decide_eq_true_eq]
    omega
  refine ⟨h', e', ?_, ?_, ?_⟩
  · intro x hx
    rw [h1, Multiset.mem_add] at hx
    rcases hx with hx | hx
    · exact h2 x hx
    · exact hinv.ok x (by rw [hel]; exact Multiset.mem_cons_of_mem hx)
  · intro σ hσ hσg
    rw [hcount σ hσ hσg]
    exact hinv.le σ hσ hσg
  · intro σ hσ hσg hHσ
    rw [hcount σ hσ hσg]
    exact hinv.ge σ hσ hσg hHσ

/-- What is said of the calls from a state on. -/
structure Runs (prm : Prm K n) (H : K) (Q : PQ K n) (E : List (Fin n → Fin n)) (st : St K n Q) (L : List (Fin n → Fin n)) : Prop where
  good : ∀ σ ∈ L, Function.Bijective σ ∧ GoodAll prm σ ∧ H < total prm.C σ
  order : L.Pairwise (NoBetter prm)
  distinct : L.Pairwise fun σ τ => ¬ Agree prm σ τ
  fresh : ∀ e ∈ E, ∀ σ ∈ L, ¬ Agree prm e σ
  all : ∀ σ, Function.Bijective σ → GoodAll prm σ → H + n * tolE < total prm.C σ → (∃ e ∈ E, Agree prm e σ) ∨ ∃ τ ∈ L, Agree prm τ σ
  head : ∀ x h', Q.pop st.pq = some (x, h') → H < x.s → L.head? = some x.a
  nil : ∀ x h', Q.pop st.pq = some (x, h') → x.s ≤ H → L = []
  calls : ∀ i, match L[i + 1]? with
    | some a => call Q prm st i = .found (st.k + 1 + i) a (total prm.C a)
    | none => call Q prm st i = .noMore ∨ ∃ r a s, call Q prm st i = .found r a s ∧ s ≤ H + n * tolE ∧ Function.Bijective a ∧ s = total prm.C a

open Classical in
theorem runs_low (hE : Ext prm bot lo hi) (hH : bot + n * hi + n * tolE ≤ H) (hf : n * (n + 1) < prm.fuel) (Q : PQ K n) {E : List (Fin n → Fin n)} {st : St K n Q}
    (hk : st.k ≠ 0) (hinv : InvX prm H E (Q.elems st.pq)) (hlow : ∀ x ∈ Q.elems st.pq, x.s ≤ H) : Runs prm H Q E st [] := by
  have hn0 : (0 : K) ≤ n * tolE := mul_nonneg (Nat.cast_nonneg n) tolE_pos.le
  refine ⟨by simp, by simp, by simp, by simp, ?_, ?_, fun _ _ _ _ => rfl, ?_⟩
  · intro σ hσ hg ht
    left
    by_contra hno
    push Not at hno
    obtain ⟨x, hx, hin⟩ := hinv.find hσ hg (by linarith) hno
    have h1 := ((hinv.ok x hx).clean hin.1).2.2 σ hin.2
    have h2 := hlow x hx
    linarith
  · intro x h' hpop hx
    have h1 : x ∈ Q.elems st.pq := by rw [(Q.pop_some _ x h' hpop).1]; simp
    exact absurd (hlow x h1) (not_le.2 hx)
  · intro i
    simp only [List.getElem?_nil]
    refine low_calls hE (by linarith) hf Q i st hk fun x hx => (hinv.ok x hx).low_of_le hE (by linarith) ?_
    have := hlow x hx
    linarith

open Classical in
theorem runs_from (hE : Ext prm bot lo hi) (hH : bot + n * hi + n * tolE ≤ H) (hf : n * (n + 1) < prm.fuel) (Q : PQ K n) :
    ∀ (N : Nat) (E : List (Fin n → Fin n)) (st : St K n Q), st.k ≠ 0 → InvX prm H E (Q.elems st.pq) →
      (Finset.univ.filter fun σ : Fin n → Fin n => ∀ e ∈ E, ¬ Agree prm e σ).card ≤ N → ∃ L, Runs prm H Q E st L := by
  intro N
  induction N with
  | zero =>
    intro E st hk hinv hcard
    refine ⟨[], runs_low hE hH hf Q hk hinv fun x hx => ?_⟩
    by_contra hc
    obtain ⟨h1, h2⟩ := (hinv.ok x hx).high hE hH (not_le.1 hc)
    have h3 := hinv.fresh hx h1 h2
    have h4 := Finset.card_eq_zero.1 (Nat.le_zero.1 hcard)
    have h5 : x.a ∈ (Finset.univ.filter fun σ : Fin n → Fin n => ∀ e ∈ E, ¬ Agree prm e σ) := Finset.mem_filter.2 ⟨Finset.mem_univ _, h3⟩
    rw [h4] at h5
    simp at h5
  | succ N ih =>
    intro E st hk hinv hcard
    by_cases hlow : ∀ x ∈ Q.elems st.pq, x.s ≤ H
    · exact ⟨[], runs_low hE hH hf Q hk hinv hlow⟩
    · push Not at hlow
      obtain ⟨x0, hx0, hx0H⟩ := hlow
      cases hpop : Q.pop st.pq with
      | none => rw [Q.pop_none _ hpop] at hx0; simp at hx0
      | some ph =>
        obtain ⟨p, h⟩ := ph
        obtain ⟨hel, hmax⟩ := Q.pop_some _ p h hpop
        have hpm : p ∈ Q.elems st.pq := by rw [hel]; simp
        have hpH : H < p.s := lt_of_lt_of_le hx0H (hmax x0 hx0)
        have hp := hinv.ok p hpm
        obtain ⟨hpc, hpg⟩ := hp.high hE hH hpH
        have hpE := hinv.fresh hpm hpc hpg
        obtain ⟨h', hexp, hinv'⟩ := InvX.step hE hf Q hel hinv hpc hpg
        have hcard' : (Finset.univ.filter fun σ : Fin n → Fin n => ∀ e ∈ p.a :: E, ¬ Agree prm e σ).card ≤ N := by
          have hlt : (Finset.univ.filter fun σ : Fin n → Fin n => ∀ e ∈ p.a :: E, ¬ Agree prm e σ).card <
              (Finset.univ.filter fun σ : Fin n → Fin n => ∀ e ∈ E, ¬ Agree prm e σ).card := by
            apply Finset.card_lt_card
            rw [Finset.ssubset_iff_of_subset]
            · refine ⟨p.a, Finset.mem_filter.2 ⟨Finset.mem_univ _, hpE⟩, ?_⟩
              simp only [Finset.mem_filter, Finset.mem_univ, true_and, List.mem_cons, forall_eq_or_imp, not_and]
              intro hcon
              exact absurd (fun _ _ => rfl) hcon
            · intro σ
              simp only [Finset.mem_filter, Finset.mem_univ, true_and, List.mem_cons, forall_eq_or_imp]
              exact fun h => h.2
          omega
        have hfn : findNextBest Q prm st = (match Q.pop h' with
          | none => (.noMore, { st with pq := h' })
          | some (x, _) => (.found (st.k + 1) x.a x.s, { st with k := st.k + 1, pq := h' })) := by
          unfold findNextBest
          rw [if_neg hk, hpop]
          simp only [hexp]
          cases Q.pop h' <;> rfl
        have build : ∀ st' : St K n Q, st'.k ≠ 0 → st'.pq = h' → (findNextBest Q prm st).2 = st' →
            (∀ x h'', Q.pop h' = some (x, h'') → st'.k = st.k + 1 ∧ (findNextBest Q prm st).1 = .found (st.k + 1) x.a x.s) →
            (Q.pop h' = none → (findNextBest Q prm st).1 = .noMore) → ∃ L, Runs prm H Q E st L := by
          intro st' hk' hq hst hs hn
          obtain ⟨L, hL⟩ := ih (p.a :: E) st' hk' (by rw [hq]; exact hinv') hcard'
          refine ⟨p.a :: L, ?_, ?_, ?_, ?_, ?_, ?_, ?_, ?_⟩
          · intro σ hσ
            rcases List.mem_cons.1 hσ with rfl | hσ
            · exact ⟨hp.basic.bij, hpg, by rw [← hp.basic.score]; exact hpH⟩
            · exact hL.good σ hσ
          · refine List.pairwise_cons.2 ⟨fun σ hσ => ?_, hL.order⟩
            obtain ⟨g1, g2, g3⟩ := hL.good σ hσ
            obtain ⟨x, hx, hin⟩ := hinv.find g1 g2 g3 fun e he => hL.fresh e (List.mem_cons_of_mem _ he) σ hσ
            have k1 := ((hinv.ok x hx).clean hin.1).2.2 σ hin.2
            have k2 := hmax x hx
            have k3 := hp.basic.score
            unfold NoBetter
            linarith
          · exact List.pairwise_cons.2 ⟨fun σ hσ => hL.fresh p.a (List.mem_cons_self ..) σ hσ, hL.distinct⟩
          · intro e he σ hσ
            rcases List.mem_cons.1 hσ with rfl | hσ
            · exact hpE e he
            · exact hL.fresh e (List.mem_cons_of_mem _ he) σ hσ
          · intro σ h1 h2 h3
            rcases hL.all σ h1 h2 h3 with ⟨e, he, hag⟩ | ⟨τ, hτ, hag⟩
            · rcases List.mem_cons.1 he with rfl | he
              · exact Or.inr ⟨p.a, List.mem_cons_self .., hag⟩
              · exact Or.inl ⟨e, he, hag⟩
            · exact Or.inr ⟨τ, List.mem_cons_of_mem _ hτ, hag⟩
          · intro x h'' e _
            rw [hpop] at e
            simp only [Option.some.injEq, Prod.mk.injEq] at e
            simp [e.1]
          · intro x h'' e hx
            rw [hpop] at e
            simp only [Option.some.injEq, Prod.mk.injEq] at e
            rw [← e.1] at hx
            exact absurd hx (not_le.2 hpH)
          · intro i
            cases hpop' : Q.pop h' with
            | none =>
              have hlow' : ∀ x ∈ Q.elems st'.pq, x.s ≤ H := by
                rw [hq, Q.pop_none _ hpop']; simp
              have hnil : L = [] := by
                rw [List.eq_nil_iff_forall_not_mem]
                intro σ hσ
                obtain ⟨g1, g2, g3⟩ := hL.good σ hσ
                obtain ⟨x, hx, -⟩ := hinv'.find g1 g2 g3 fun e he => hL.fresh e he σ hσ
                rw [Q.pop_none _ hpop'] at hx; simp at hx
              subst hnil
              simp only [List.getElem?_cons_succ, List.getElem?_nil]
              left
              cases i with
              | zero => simp only [call]; exact hn hpop'
              | succ i =>
                simp only [call, hst]
                exact call_noMore Q prm st' hk' (by rw [hq]; exact hpop') i
            | some yh =>
              obtain ⟨hkk, hret⟩ := hs yh.1 yh.2 hpop'
              have hy : yh.1 ∈ Q.elems h' := by rw [(Q.pop_some _ yh.1 yh.2 hpop').1]; simp
              cases i with
              | zero =>
                by_cases hyH : H < yh.1.s
                · have hhead := hL.head yh.1 yh.2 (by rw [hq]; exact hpop') hyH
                  have : (p.a :: L)[0 + 1]? = some yh.1.a := by
                    rw [List.getElem?_cons_succ, ← List.head?_eq_getElem?]; exact hhead
                  simp only [this, call, hret]
                  rw [(hinv'.ok _ hy).basic.score, Nat.add_zero]
                · have hnil : L = [] := hL.nil yh.1 yh.2 (by rw [hq]; exact hpop') (not_lt.1 hyH)
                  subst hnil
                  simp only [List.getElem?_cons_succ, List.getElem?_nil, call, hret]
                  right
                  have hn0 : (0 : K) ≤ n * tolE := mul_nonneg (Nat.cast_nonneg n) tolE_pos.le
                  exact ⟨_, _, _, rfl, by linarith [not_lt.1 hyH], (hinv'.ok _ hy).basic.bij, (hinv'.ok _ hy).basic.score⟩
              | succ i =>
                have hci := hL.calls i
                have : (p.a :: L)[i + 1 + 1]? = L[i + 1]? := by rw [List.getElem?_cons_succ]
                simp only [this, call, hst]
                rw [show st.k + 1 + (i + 1) = st'.k + 1 + i by omega]
                exact hci
        cases hpop' : Q.pop h' with
        | none =>
          rw [hpop'] at hfn
          exact build { st with pq := h' } hk rfl (by rw [hfn]) (by intro x h'' e; rw [hpop'] at e; cases e) (fun _ => by rw [hfn])
        | some yh =>
          rw [hpop'] at hfn
          refine build { st with k := st.k + 1, pq := h' } (by simp) rfl (by rw [hfn]) ?_ ?_
          · intro x h'' e
            rw [hpop'] at e
            cases e
            exact ⟨rfl, by rw [hfn]⟩
          · intro e; rw [hpop'] at e; cases e

open Classical in
/-- The calls of `findNextBest`, from the first. -/
theorem runs_all (hE : Ext prm bot lo hi) (hH : bot + n * hi + n * tolE ≤ H) (hf : n * (n + 1) < prm.fuel) (Q : PQ K n) :
    ∃ L : List (Fin n → Fin n), (∀ σ ∈ L, Function.Bijective σ ∧ GoodAll prm σ ∧ H < total prm.C σ) ∧ L.Pairwise (NoBetter prm) ∧
      (L.Pairwise fun σ τ => ¬ Agree prm σ τ) ∧ (∀ σ, Function.Bijective σ → GoodAll prm σ → H + n * tolE < total prm.C σ → ∃ τ ∈ L, Agree prm τ σ) ∧
      ∀ i, match L[i]? with
        | some a => call Q prm (start Q) i = .found (i + 1) a (total prm.C a)
        | none => call Q prm (start Q) i = .noMore ∨
            ∃ r a s, call Q prm (start Q) i = .found r a s ∧ s ≤ H + n * tolE ∧ Function.Bijective a ∧ s = total prm.C a := by
  have hn0 : (0 : K) ≤ n * tolE := mul_nonneg (Nat.cast_nonneg n) tolE_pos.le
  obtain ⟨soln, e, hbij, hopt, -⟩ := Hungarian.run_spec prm.C true prm.fuel hf
  simp only [if_true] at hopt
  let root : Node K n := ⟨0, soln, ∑ x, prm.C x (soln x), []⟩
  have hinS : ∀ σ : Fin n → Fin n, Function.Bijective σ → InSetX prm.nC root.id root.a root.chain σ := by
    intro σ hσ
    exact ⟨hσ, fun i hi => absurd hi (by simp [root]), fun _ => by simp [forbX, root]⟩
  have hclean : Clean prm root := by intro e he; simp [root] at he
  have hroot : NodeX prm H root := by
    refine ⟨⟨hbij, rfl, trivial, hE.nR_pos⟩, fun _ => ⟨fun i hi => absurd hi (by simp [root]), hinS _ hbij, fun σ hσ => hopt σ hσ.1⟩, fun h => absurd hclean h⟩
  let st1 : St K n Q := ⟨1, Q.push Q.empty root, ∑ x, prm.C x (soln x)⟩
  have hel : Q.elems st1.pq = {root} := by
    simp only [st1, Q.elems_push, Q.elems_empty]; rfl
  have hcnt : ∀ σ, Function.Bijective σ → ([] : List (Fin n → Fin n)).countP (fun e => decide (Agree prm e σ)) + (Q.elems st1.pq).countP (InNodeX prm σ) = 1 := by
    intro σ hσ
    have h2 : ({root} : Multiset (Node K n)) = root ::ₘ 0 := rfl
    have h3 : InNodeX prm σ root := ⟨hclean, hinS σ hσ⟩
    rw [hel, h2, Multiset.countP_cons]
    simp [h3]
  have hinv : InvX prm H [] (Q.elems st1.pq) := by
    refine ⟨?_, fun σ hσ _ => (hcnt σ hσ).le, fun σ hσ _ _ => (hcnt σ hσ).ge⟩
    intro x hx
    rw [hel] at hx
    rw [Multiset.mem_singleton.1 hx]; exact hroot
  obtain ⟨L, hL⟩ := runs_from hE hH hf Q _ [] st1 (by simp [st1]) hinv le_rfl
  have hfn : findNextBest Q prm (start Q) = (.found 1 soln (∑ x, prm.C x (soln x)), st1) := by
    unfold findNextBest
    rw [if_pos (show (start Q).k = 0 from rfl), e]; rfl
  refine ⟨L, hL.good, hL.order, hL.distinct, fun σ h1 h2 h3 => (hL.all σ h1 h2 h3).resolve_left (by simp), fun i => ?_⟩
  cases i with
  | zero =>
    obtain ⟨h', hpop⟩ : ∃ h', Q.pop st1.pq = some (root, h') := by
      cases hpop : Q.pop st1.pq with
      | none =>
        have := Q.pop_none _ hpop
        rw [hel] at this; simp at this
      | some xh =>
        have h1 := (Q.pop_some _ xh.1 xh.2 hpop).1
        have h2 : xh.1 ∈ Q.elems st1.pq := by rw [h1]; simp
        rw [hel] at h2
        exact ⟨xh.2, by rw [← Multiset.mem_singleton.1 h2]⟩
    by_cases hr : H < root.s
    · have hhead := hL.head root h' hpop hr
      rw [← List.head?_eq_getElem?, hhead]
      simp only [call, hfn]; rfl
    · have hnil := hL.nil root h' hpop (not_lt.1 hr)
      subst hnil
      simp only [List.getElem?_nil, call, hfn]
      exact Or.inr ⟨_, _, _, rfl, by have := not_lt.1 hr; simp only [root] at this; linarith, hbij, rfl⟩
  | succ i =>
    have hci := hL.calls i
    simp only [call, hfn]
    rw [show st1.k + 1 + i = i + 1 + 1 by simp [st1]; omega] at hci
    exact hci

end Murty
end RFS
