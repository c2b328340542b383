import Verif.Model.Partition
import Mathlib.Data.List.Nodup
import Mathlib.Data.List.Basic
import Mathlib.Data.Fintype.EquivFin
import Mathlib.Data.Fintype.Quotient
import Mathlib.Data.Fintype.Sum

namespace RFS
namespace Partition

variable {K : Type*} [LinearOrder K] {nR nC : Nat}

/-- No edge at this vertex. -/
def Isolated (C : Fin nR → Fin nC → K) (thr : K) : Fin nR ⊕ Fin nC → Prop
  | .inl i => ∀ j, C i j ≤ thr
  | .inr j => ∀ i, C i j ≤ thr

theorem conn_isolated {C : Fin nR → Fin nC → K} {thr : K} {u v : Fin nR ⊕ Fin nC} (h : Conn C thr u v) :
    (Isolated C thr u → u = v) ∧ (Isolated C thr v → u = v) := by
  induction h with
  | rel u v h =>
    cases h with
    | mk i j h =>
      exact ⟨fun hi => absurd h (not_lt.2 (hi j)), fun hj => absurd h (not_lt.2 (hj i))⟩
  | refl => exact ⟨fun _ => rfl, fun _ => rfl⟩
  | symm u v _ ih => exact ⟨fun h => (ih.2 h).symm, fun h => (ih.1 h).symm⟩
  | trans u w v _ _ ih1 ih2 =>
    constructor
    · intro h
      have := ih1.1 h
      subst this
      exact ih2.1 h
    · intro h
      have := ih2.2 h
      subst this
      exact ih1.2 h

variable {C : Fin nR → Fin nC → K} {thr : K} {ncc : Nat} {lab : Fin nR ⊕ Fin nC → Nat}

/-- The rows and columns of a component. -/
abbrev R (lab : Fin nR ⊕ Fin nC → Nat) (x : Nat) : List (Fin nR) := (List.finRange nR).filter fun i => lab (.inl i) == x
abbrev L (lab : Fin nR ⊕ Fin nC → Nat) (x : Nat) : List (Fin nC) := (List.finRange nC).filter fun j => lab (.inr j) == x

theorem mem_R {x : Nat} {i : Fin nR} : i ∈ R lab x ↔ lab (.inl i) = x := by simp [R]
theorem mem_L {x : Nat} {j : Fin nC} : j ∈ L lab x ↔ lab (.inr j) = x := by simp [L]

theorem isolated_of_no_cols (h : IsComponents C thr ncc lab) {x : Nat} (hx : L lab x = []) {i : Fin nR}
    (hi : lab (.inl i) = x) : Isolated C thr (.inl i) := by
  intro j
  by_contra hc
  rw [not_le] at hc
  have h1 := (h.conn (.inl i) (.inr j)).2 (Relation.EqvGen.rel _ _ (.mk i j hc))
  have : j ∈ L lab x := mem_L.2 (h1.symm.trans hi)
  rw [hx] at this; cases this

theorem isolated_of_no_rows (h : IsComponents C thr ncc lab) {x : Nat} (hx : R lab x = []) {j : Fin nC}
    (hj : lab (.inr j) = x) : Isolated C thr (.inr j) := by
  intro i
  by_contra hc
  rw [not_le] at hc
  have h1 := (h.conn (.inl i) (.inr j)).2 (Relation.EqvGen.rel _ _ (.mk i j hc))
  have : i ∈ R lab x := mem_R.2 (h1.trans hj)
  rw [hx] at this; cases this

theorem nodup_R (x : Nat) : (R lab x).Nodup := (List.nodup_finRange _).filter _
theorem nodup_L (x : Nat) : (L lab x).Nodup := (List.nodup_finRange _).filter _

theorem singleton_of_nodup {α : Type*} {l : List α} (hn : l.Nodup) {a : α} {t : List α} (hl : l = a :: t)
    (h : ∀ b ∈ l, b = a) : l = [a] := by
  subst hl
  cases t with
  | nil => rfl
  | cons b t =>
    have := h b (by simp)
    subst this
    simp at hn

theorem single_row (h : IsComponents C thr ncc lab) {x : Nat} (hx : L lab x = []) {i : Fin nR} {t : List (Fin nR)}
    (hi : R lab x = i :: t) : R lab x = [i] := by
  apply singleton_of_nodup (nodup_R x) hi
  intro b hb
  have hib : lab (.inl i) = x := mem_R.1 (by rw [hi]; simp)
  have h1 := (h.conn (.inl b) (.inl i)).1 ((mem_R.1 hb).trans hib.symm)
  have := (conn_isolated h1).2 (isolated_of_no_cols h hx hib)
  exact Sum.inl.inj this

theorem single_col (h : IsComponents C thr ncc lab) {x : Nat} (hx : R lab x = []) {j : Fin nC} {t : List (Fin nC)}
    (hj : L lab x = j :: t) : L lab x = [j] := by
  apply singleton_of_nodup (nodup_L x) hj
  intro b hb
  have hib : lab (.inr j) = x := mem_L.1 (by rw [hj]; simp)
  have h1 := (h.conn (.inr b) (.inr j)).1 ((mem_L.1 hb).trans hib.symm)
  have := (conn_isolated h1).2 (isolated_of_no_rows h hx hib)
  exact Sum.inr.inj this

/-- The component has no rows or no columns. -/
def ZeroLab (lab : Fin nR ⊕ Fin nC → Nat) (x : Nat) : Prop := R lab x = [] ∨ L lab x = []

/-- Invariant of the merging loop: `Z` are the labels already combined, `l` tells which component sits in which slot. -/
structure Inv (ncc : Nat) (lab : Fin nR ⊕ Fin nC → Nat) (s : Comps nR nC) (n : Nat) (Z : List Nat) (l : Nat → Nat) :
    Prop where
  hn : n ≤ ncc - s.merged
  z0 : s.zero = none → Z = [] ∧ s.merged = 0
  z1 : ∀ z, s.zero = some z → z < n ∧ Z ≠ [] ∧ s.I z = Z.flatMap (R lab) ∧ s.J z = Z.flatMap (L lab)
  slot : ∀ p < ncc - s.merged, s.zero ≠ some p → s.I p = R lab (l p) ∧ s.J p = L lab (l p) ∧ l p ∉ Z ∧ l p < ncc
  inj : ∀ p < ncc - s.merged, ∀ q < ncc - s.merged, s.zero ≠ some p → s.zero ≠ some q → l p = l q → p = q
  cover : ∀ x < ncc, x ∈ Z ∨ ∃ p < ncc - s.merged, s.zero ≠ some p ∧ l p = x
  zl : ∀ x ∈ Z, ZeroLab lab x ∧ x < ncc
  znd : Z.Nodup
  done : ∀ p < n, s.zero ≠ some p → s.I p ≠ [] ∧ s.J p ≠ []

theorem inv_swap {s : Comps nR nC} {n z : Nat} {Z : List Nat} {l : Nat → Nat} (h : Inv ncc lab s n Z l)
    (hz : s.zero = some z) (hn : n < ncc - s.merged) (I' : Nat → List (Fin nR)) (J' : Nat → List (Fin nC))
    (hI : I' = swapF (Function.update s.I z (s.I z ++ R lab (l n))) n (ncc - (s.merged + 1)))
    (hJ : J' = swapF (Function.update s.J z (s.J z ++ L lab (l n))) n (ncc - (s.merged + 1)))
    (hzl : ZeroLab lab (l n)) :
    Inv ncc lab ⟨I', J', some z, s.merged + 1⟩ n (Z ++ [l n]) (fun p => if p = n then l (ncc - (s.merged + 1)) else l p) := by
  obtain ⟨g1, g2, g3, g4⟩ := h.z1 z hz
  set q := ncc - (s.merged + 1) with hq
  have hqA : ncc - s.merged = q + 1 := by omega
  have hnz : s.zero ≠ some n := by rw [hz]; intro e; cases e; omega
  have hqz : n ≠ q → s.zero ≠ some q := by
    intro hne e; rw [hz] at e; have := Option.some.inj e; omega
  obtain ⟨s1, s2, s3, s4⟩ := h.slot n hn hnz
  have hzn : z ≠ n := by omega
  have hzq : z ≠ q ∨ False := by
    left; omega
  have hzq := hzq.resolve_right id
  -- values of the new arrays
  have eI : ∀ p, p < q → p ≠ z → I' p = if p = n then s.I q else s.I p := by
    intro p hp hpz
    rw [hI]; unfold swapF
    by_cases e : p = n
    · rw [if_pos e, if_pos e, Function.update_of_ne (Ne.symm hzq)]
    · rw [if_neg e, if_neg e, if_neg (by omega), Function.update_of_ne hpz]
  have eJ : ∀ p, p < q → p ≠ z → J' p = if p = n then s.J q else s.J p := by
    intro p hp hpz
    rw [hJ]; unfold swapF
    by_cases e : p = n
    · rw [if_pos e, if_pos e, Function.update_of_ne (Ne.symm hzq)]
    · rw [if_neg e, if_neg e, if_neg (by omega), Function.update_of_ne hpz]
  refine ⟨?_, ?_, ?_, ?_, ?_, ?_, ?_, ?_, ?_⟩
  · simp only; omega
  · simp
  · intro z' hz'
    cases hz'
    refine ⟨g1, by simp, ?_, ?_⟩
    · simp only; rw [hI]; unfold swapF
      rw [if_neg hzn, if_neg hzq, Function.update_self, g3]; simp
    · simp only; rw [hJ]; unfold swapF
      rw [if_neg hzn, if_neg hzq, Function.update_self, g4]; simp
  · intro p hp hpz
    simp only at hp hpz ⊢
    have hp' : p < q := hp
    have hpz' : p ≠ z := fun e => hpz (by rw [e])
    rw [eI p hp' hpz', eJ p hp' hpz']
    by_cases e : p = n
    · subst e
      obtain ⟨t1, t2, t3, t4⟩ := h.slot q (by omega) (hqz (by omega))
      simp only [if_true]
      refine ⟨t1, t2, ?_, t4⟩
      rw [List.mem_append, List.mem_singleton]
      rintro (hm | hm)
      · exact t3 hm
      · have := h.inj q (by omega) p (by omega) (hqz (by omega)) hnz hm
        omega
    · obtain ⟨t1, t2, t3, t4⟩ := h.slot p (by omega) (by rw [hz]; exact fun e => hpz' (by cases e; rfl))
      simp only [if_neg e]
      refine ⟨t1, t2, ?_, t4⟩
      rw [List.mem_append, List.mem_singleton]
      rintro (hm | hm)
      · exact t3 hm
      · exact e (h.inj p (by omega) n (by omega) (by rw [hz]; exact fun e => hpz' (by cases e; rfl)) hnz hm)
  · intro p hp p' hp' hpz hpz' e
    simp only at hp hp' hpz hpz' e
    have hp1 : p < q := hp
    have hp2 : p' < q := hp'
    have k1 : s.zero ≠ some p := by rw [hz]; exact hpz
    have k2 : s.zero ≠ some p' := by rw [hz]; exact hpz'
    by_cases e1 : p = n
    · by_cases e2 : p' = n
      · rw [e1, e2]
      · rw [if_pos e1, if_neg e2] at e
        have := h.inj q (by omega) p' (by omega) (hqz (by omega)) k2 e
        omega
    · by_cases e2 : p' = n
      · rw [if_neg e1, if_pos e2] at e
        have := h.inj p (by omega) q (by omega) k1 (hqz (by omega)) e
        omega
      · rw [if_neg e1, if_neg e2] at e
        exact h.inj p (by omega) p' (by omega) k1 k2 e
  · intro x hx
    simp only
    rcases h.cover x hx with hm | ⟨p, hp, hpz, hl⟩
    · left; simp [hm]
    · by_cases e1 : p = n
      · left; simp [← hl, e1]
      · by_cases e2 : p = q
        · right
          refine ⟨n, by omega, ?_, ?_⟩
          · rw [← hz]; exact hnz
          · rw [if_pos rfl, ← e2]; exact hl
        · right
          exact ⟨p, by omega, by rw [← hz]; exact hpz, by rw [if_neg e1]; exact hl⟩
  · intro x hx
    rw [List.mem_append, List.mem_singleton] at hx
    rcases hx with hx | rfl
    · exact h.zl x hx
    · exact ⟨hzl, s4⟩
  · rw [List.nodup_append]
    refine ⟨h.znd, by simp, ?_⟩
    intro a ha b hb
    rw [List.mem_singleton] at hb
    subst hb
    intro e; subst e; exact s3 ha
  · intro p hp hpz
    simp only at hpz ⊢
    have hpz' : p ≠ z := fun e => hpz (by rw [e])
    rw [eI p (by omega) hpz', eJ p (by omega) hpz', if_neg (by omega), if_neg (by omega)]
    exact h.done p hp (by rw [hz]; exact hpz)

theorem mergeLoop_spec (hc : IsComponents C thr ncc lab) : ∀ (k : Nat) (s : Comps nR nC) (n : Nat) (Z : List Nat) (l : Nat → Nat),
    ncc - s.merged - n = k → Inv ncc lab s n Z l →
    ∃ s' Z' l', mergeLoop ncc s n = some s' ∧ Inv ncc lab s' (ncc - s'.merged) Z' l' := by
  intro k
  induction k using Nat.strong_induction_on with
  | _ k ih =>
    intro s n Z l hk h
    unfold mergeLoop
    by_cases hn : n < ncc - s.merged
    · rw [if_pos hn]
      by_cases hz : s.I n = [] ∨ s.J n = []
      · rw [if_pos hz]
        cases hzero : s.zero with
        | none =>
          simp only
          obtain ⟨hZ, hm⟩ := h.z0 hzero
          subst hZ
          obtain ⟨s1, s2, s3, s4⟩ := h.slot n hn (by rw [hzero]; simp)
          refine ih (ncc - s.merged - (n + 1)) (by omega) ⟨s.I, s.J, some n, s.merged⟩ (n + 1) [l n] l rfl ?_
          refine ⟨by simp only; omega, by simp, ?_, ?_, ?_, ?_, ?_, by simp, ?_⟩
          · intro z e; cases e
            exact ⟨by omega, by simp, by simp [s1], by simp [s2]⟩
          · intro p hp hpz
            obtain ⟨t1, t2, t3, t4⟩ := h.slot p hp (by rw [hzero]; simp)
            refine ⟨t1, t2, ?_, t4⟩
            rw [List.mem_singleton]
            intro e
            have := h.inj p hp n hn (by rw [hzero]; simp) (by rw [hzero]; simp) e
            exact hpz (by rw [this])
          · intro p hp q hq _ _ e
            exact h.inj p hp q hq (by rw [hzero]; simp) (by rw [hzero]; simp) e
          · intro x hx
            rcases h.cover x hx with hm | ⟨p, hp, -, hl⟩
            · cases hm
            · by_cases e : p = n
              · left; simp [← hl, e]
              · right; exact ⟨p, hp, by simp only [ne_eq, Option.some.injEq]; exact fun h => e h.symm, hl⟩
          · intro x hx
            rw [List.mem_singleton] at hx
            subst hx
            refine ⟨?_, s4⟩
            unfold ZeroLab
            rw [← s1, ← s2]; exact hz
          · intro p hp hpz
            have : p ≠ n := fun e => hpz (by rw [e])
            exact h.done p (by omega) (by rw [hzero]; simp)
        | some z =>
          have hnz : s.zero ≠ some n := by
            rw [hzero]; intro e; cases e
            have := (h.z1 _ hzero).1; omega
          obtain ⟨s1, s2, s3, s4⟩ := h.slot n hn hnz
          have hzl : ZeroLab lab (l n) := by unfold ZeroLab; rw [← s1, ← s2]; exact hz
          simp only
          cases hIn : s.I n with
          | cons i t =>
            have hJn : s.J n = [] := hz.resolve_left (by rw [hIn]; simp)
            have e1 : R lab (l n) = [i] := single_row hc (by rw [← s2]; exact hJn) (by rw [← s1]; exact hIn)
            have e2 : L lab (l n) = [] := by rw [← s2]; exact hJn
            simp only
            apply ih (ncc - (s.merged + 1) - n) (by omega) _ n (Z ++ [l n]) _ rfl
            apply inv_swap h hzero hn _ _ (by rw [e1]) ?_ hzl
            rw [e2]
            simp
          | nil =>
            cases hJn : s.J n with
            | cons j t =>
              have e1 : L lab (l n) = [j] := single_col hc (by rw [← s1]; exact hIn) (by rw [← s2]; exact hJn)
              have e2 : R lab (l n) = [] := by rw [← s1]; exact hIn
              simp only
              apply ih (ncc - (s.merged + 1) - n) (by omega) _ n (Z ++ [l n]) _ rfl
              apply inv_swap h hzero hn _ _ ?_ (by rw [e1]) hzl
              rw [e2]
              simp
            | nil =>
              exfalso
              obtain ⟨v, hv⟩ := hc.onto (l n) s4
              cases v with
              | inl i =>
                have : i ∈ R lab (l n) := mem_R.2 hv
                rw [← s1, hIn] at this; cases this
              | inr j =>
                have : j ∈ L lab (l n) := mem_L.2 hv
                rw [← s2, hJn] at this; cases this
      · rw [if_neg hz]
        apply ih (ncc - s.merged - (n + 1)) (by omega) s (n + 1) Z l rfl
        refine ⟨by omega, h.z0, ?_, h.slot, h.inj, h.cover, h.zl, h.znd, ?_⟩
        · intro z e
          obtain ⟨g1, g2⟩ := h.z1 z e
          exact ⟨by omega, g2⟩
        · intro p hp hpz
          by_cases e : p = n
          · subst e
            rw [not_or] at hz
            exact hz
          · exact h.done p (by omega) hpz
    · rw [if_neg hn]
      have : n = ncc - s.merged := by have := h.hn; omega
      exact ⟨s, Z, l, rfl, this ▸ h⟩

theorem partition_spec (hc : IsComponents C thr ncc lab) :
    ∃ o Z l, partition ncc lab none = some o ∧ (∃ m, o.nP = ncc - m ∧ Inv ncc lab ⟨o.I, o.J, o.zero, m⟩ (ncc - m) Z l) ∧
      ∀ p, o.alloc p = none := by
  obtain ⟨s, Z, l, h1, h2⟩ := mergeLoop_spec hc _ (collect lab) 0 [] id rfl (by
    refine ⟨by simp [collect], by simp [collect], by simp [collect], ?_, ?_, ?_, by simp, by simp, by simp⟩
    · intro p hp _
      exact ⟨rfl, rfl, by simp, by simpa [collect] using hp⟩
    · intro p _ q _ _ _ e; exact e
    · intro x hx
      right
      exact ⟨x, by simpa [collect] using hx, by simp [collect], rfl⟩)
  unfold partition
  rw [h1]
  exact ⟨_, Z, l, rfl, ⟨s.merged, rfl, h2⟩, fun _ => rfl⟩

/-- The contract of the library call can be met for every matrix. -/
theorem components_exist (C : Fin nR → Fin nC → K) (thr : K) : ∃ ncc lab, IsComponents C thr ncc lab := by
  classical
  let S : Setoid (Fin nR ⊕ Fin nC) := Relation.EqvGen.setoid (Edge C thr)
  let e := Fintype.equivFin (Quotient S)
  refine ⟨Fintype.card (Quotient S), fun v => (e (Quotient.mk S v)).val, ?_, ?_, ?_⟩
  · intro v; exact (e _).isLt
  · intro x hx
    obtain ⟨v, hv⟩ := Quotient.exists_rep (e.symm ⟨x, hx⟩)
    exact ⟨v, by rw [hv]; simp⟩
  · intro u v
    rw [Fin.val_inj, e.apply_eq_iff_eq, Quotient.eq]
    rfl

end Partition
end RFS
