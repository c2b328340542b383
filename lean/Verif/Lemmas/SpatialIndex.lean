import Verif.Model.SpatialIndex
import Mathlib.Algebra.Order.BigOperators.Group.Finset
import Mathlib.Algebra.BigOperators.Fin
import Mathlib.Algebra.Order.Archimedean.Basic
import Mathlib.Data.Multiset.Count
import Mathlib.Data.Multiset.AddSub
import Mathlib.Algebra.Order.Group.Multiset
import Mathlib.Algebra.BigOperators.Group.Finset.Sigma
import Mathlib.Data.Nat.Bitwise
import Mathlib.Tactic.Linarith
import Mathlib.Tactic.Ring
import Mathlib.Tactic.Abel
import Mathlib.Tactic.Push
import Mathlib.Tactic.Positivity

/-! Lemmas about the spatial index tree: well-formedness is preserved, and the queries agree with the stored multiset. -/

set_option linter.unusedSectionVars false

namespace RFS
namespace SIT

variable {K : Type*} [Field K] [LinearOrder K] [IsStrictOrderedRing K] {D : Type*} {d : Nat} (I : Idx K D d)

/-- Multiset of stored data. -/
def items : Tree K D d → Multiset D
  | .leaf _ _ data => data
  | .node _ _ _ ch => ∑ i, items (ch i)

/-- Well-formed box: children partition it, data lie in their leaf, counters count. -/
def WF : Tree K D d → Prop
  | .leaf lo k data => ∀ y ∈ data, inside lo (I.sz k) (I.pos y)
  | .node lo k n ch => ∃ k', k = k' + 1 ∧ n = ∑ i, (ch i).size ∧
      ∀ i, (ch i).level = k' ∧ (ch i).lo = childLo lo (I.sz k') i ∧ WF (ch i)

theorem sz_succ (k : Nat) : I.sz (k + 1) = I.sz k + I.sz k := by unfold Idx.sz; ring

theorem sz_pos (hm : 0 < I.mn) (k : Nat) : 0 < I.sz k := by unfold Idx.sz; positivity

theorem size_eq (t : Tree K D d) (h : WF I t) : t.size = Multiset.card (items t) := by
  induction t with
  | leaf lo k data => simp [Tree.size, items]
  | node lo k n ch ih =>
    obtain ⟨k', -, hn, hch⟩ := h
    have hs : Multiset.card (items (.node lo k n ch)) = ∑ i, Multiset.card (items (ch i)) := by
      simp only [items]; exact map_sum Multiset.cardHom _ _
    rw [hs]
    refine (hn : n = _).trans ?_
    exact Finset.sum_congr rfl fun i _ => ih i (hch i).2.2

theorem mem_items_node {lo : Fin d → K} {k n : Nat} {ch : Fin (2 ^ d) → Tree K D d} {y : D} :
    y ∈ items (.node lo k n ch) ↔ ∃ i, y ∈ items (ch i) := by
  simp [items, Multiset.mem_sum]

theorem inside_child (hm : 0 < I.mn) (lo : Fin d → K) (k : Nat) (i : Fin (2 ^ d)) (p : Fin d → K)
    (h : inside (childLo lo (I.sz k) i) (I.sz k) p) : inside lo (I.sz (k + 1)) p := by
  intro t
  have hp := sz_pos I hm k
  rw [sz_succ]
  have := h t
  unfold childLo at this
  split at this <;> constructor <;> linarith [this.1, this.2]

theorem inside_of_mem (hm : 0 < I.mn) (t : Tree K D d) (h : WF I t) (y : D) (hy : y ∈ items t) :
    inside t.lo (I.sz t.level) (I.pos y) := by
  induction t with
  | leaf lo k data => exact h y (by simpa [items] using hy)
  | node lo k n ch ih =>
    obtain ⟨k', rfl, hn, hch⟩ := h
    obtain ⟨i, hi⟩ := mem_items_node.1 hy
    have h1 := ih i (hch i).2.2 hi
    rw [(hch i).1, (hch i).2.1] at h1
    exact inside_child I hm lo k' i _ h1

/-! ### choice of a child -/

theorem exists_bits (b : Fin d → Bool) : ∃ i : Fin (2 ^ d), ∀ t : Fin d, i.val.testBit t = b t := by
  refine ⟨⟨Nat.ofBits b, Nat.ofBits_lt_two_pow b⟩, fun t => ?_⟩
  exact Nat.testBit_ofBits_lt b t t.isLt

theorem bits_inj (i j : Fin (2 ^ d)) (h : ∀ t : Fin d, i.val.testBit t = j.val.testBit t) : i = j := by
  apply Fin.ext
  apply Nat.eq_of_testBit_eq
  intro t
  by_cases ht : t < d
  · exact h ⟨t, ht⟩
  · have hpow : 2 ^ d ≤ 2 ^ t := Nat.pow_le_pow_right (by decide) (by omega)
    rw [Nat.testBit_lt_two_pow (lt_of_lt_of_le i.isLt hpow), Nat.testBit_lt_two_pow (lt_of_lt_of_le j.isLt hpow)]

/-- Strict interior. -/
def Int' (lo : Fin d → K) (s : K) (p : Fin d → K) : Prop := ∀ i, lo i < p i ∧ p i < lo i + s

theorem sep (lo : Fin d → K) (h : K) (i j : Fin (2 ^ d)) (p : Fin d → K) (hi : inside (childLo lo h i) h p)
    (hj : Int' (childLo lo h j) h p) : i = j := by
  apply bits_inj
  intro t
  have h1 := hi t
  have h2 := hj t
  unfold childLo at h1 h2
  cases hbi : i.val.testBit t <;> cases hbj : j.val.testBit t <;> simp only [hbi, hbj] at h1 h2 <;> first | rfl | skip
  · simp at h1 h2; linarith [h1.2, h2.1]
  · simp at h1 h2; linarith [h1.1, h2.2]

theorem firstInside_some (ch : Fin (2 ^ d) → Tree K D d) (p : Fin d → K) (c : Fin (2 ^ d)) (h : firstInside I ch p = some c) :
    inside (ch c).lo (I.sz (ch c).level) p := by
  unfold firstInside at h
  simpa using List.find?_some h

theorem firstInside_exists (lo : Fin d → K) (k : Nat) (ch : Fin (2 ^ d) → Tree K D d)
    (hch : ∀ i, (ch i).level = k ∧ (ch i).lo = childLo lo (I.sz k) i) (p : Fin d → K) (hp : inside lo (I.sz (k + 1)) p) :
    ∃ c, firstInside I ch p = some c ∧ inside (childLo lo (I.sz k) c) (I.sz k) p := by
  obtain ⟨i, hi⟩ := exists_bits (fun t => decide (lo t + I.sz k < p t))
  have hin : inside (childLo lo (I.sz k) i) (I.sz k) p := by
    intro t
    have h1 := hp t
    rw [sz_succ] at h1
    unfold childLo
    rw [hi t]
    by_cases hlt : lo t + I.sz k < p t
    · simp only [hlt, decide_true, if_true]
      constructor
      · exact hlt.le
      · linarith [h1.2]
    · simp only [hlt, decide_false]
      simp only [Bool.false_eq_true, if_false, add_zero]
      exact ⟨h1.1, not_lt.1 hlt⟩
  have hne : firstInside I ch p ≠ none := by
    intro hn
    unfold firstInside at hn
    rw [List.find?_eq_none] at hn
    apply hn i (List.mem_finRange i)
    rw [(hch i).1, (hch i).2]
    simpa using hin
  obtain ⟨c, hc⟩ := Option.ne_none_iff_exists'.1 hne
  refine ⟨c, hc, ?_⟩
  have := firstInside_some I ch p c hc
  rwa [(hch c).1, (hch c).2] at this

theorem branch_geom (lo : Fin d → K) (k : Nat) (f : Fin (2 ^ d) → List D) (i : Fin (2 ^ d)) :
    (branch I lo k f i).level = k ∧ (branch I lo k f i).lo = childLo lo (I.sz k) i := ⟨rfl, rfl⟩

/-! ### insertion -/

theorem distribute_spec (lo : Fin d → K) (k : Nat) (g : Fin (2 ^ d) → List D) (ys : List D) :
    ∀ f : Fin (2 ^ d) → List D, (∀ y ∈ ys, inside lo (I.sz (k + 1)) (I.pos y)) →
      (∀ i, ∀ y ∈ f i, inside (childLo lo (I.sz k) i) (I.sz k) (I.pos y)) →
      ∃ f', distribute I (branch I lo k g) ys f = some f' ∧
        (∀ i, ∀ y ∈ f' i, inside (childLo lo (I.sz k) i) (I.sz k) (I.pos y)) ∧
        (∑ i, (f' i : Multiset D)) = (∑ i, (f i : Multiset D)) + (ys : Multiset D) := by
  induction ys with
  | nil => intro f _ hf; exact ⟨f, rfl, hf, by simp⟩
  | cons y ys ih =>
    intro f hys hf
    obtain ⟨c, hc, hcin⟩ := firstInside_exists I lo k (branch I lo k g) (branch_geom I lo k g) (I.pos y) (hys y (by simp))
    obtain ⟨f', e, h1, h2⟩ := ih (Function.update f c (f c ++ [y])) (fun z hz => hys z (by simp [hz]))
      (by
        intro i z hz
        by_cases hic : i = c
        · subst hic
          rw [Function.update_self, List.mem_append, List.mem_singleton] at hz
          rcases hz with hz | rfl
          · exact hf i z hz
          · exact hcin
        · rw [Function.update_of_ne hic] at hz
          exact hf i z hz)
    refine ⟨f', ?_, h1, ?_⟩
    · unfold distribute
      rw [hc]
      exact e
    · rw [h2]
      have : (∑ i, ((Function.update f c (f c ++ [y]) i : List D) : Multiset D)) = (∑ i, (f i : Multiset D)) + {y} := by
        rw [← Finset.add_sum_erase _ _ (Finset.mem_univ c), ← Finset.add_sum_erase Finset.univ (fun i => (f i : Multiset D)) (Finset.mem_univ c),
          Function.update_self]
        have : ∑ x ∈ Finset.univ.erase c, ((Function.update f c (f c ++ [y]) x : List D) : Multiset D)
            = ∑ x ∈ Finset.univ.erase c, (f x : Multiset D) :=
          Finset.sum_congr rfl fun i hi => by rw [Function.update_of_ne (Finset.ne_of_mem_erase hi)]
        rw [this, ← Multiset.coe_add]
        have : (([y] : List D) : Multiset D) = {y} := rfl
        rw [this]
        abel
      rw [this, add_assoc]
      congr 1

theorem sum_update (ch : Fin (2 ^ d) → Tree K D d) (c : Fin (2 ^ d)) (t : Tree K D d) (x : D) (h : items t = x ::ₘ items (ch c)) :
    (∑ i, items (Function.update ch c t i)) = x ::ₘ ∑ i, items (ch i) := by
  rw [← Finset.add_sum_erase _ _ (Finset.mem_univ c), ← Finset.add_sum_erase Finset.univ (fun i => items (ch i)) (Finset.mem_univ c),
    Function.update_self, h]
  have : ∑ i ∈ Finset.univ.erase c, items (Function.update ch c t i) = ∑ i ∈ Finset.univ.erase c, items (ch i) :=
    Finset.sum_congr rfl fun i hi => by rw [Function.update_of_ne (Finset.ne_of_mem_erase hi)]
  rw [this, Multiset.cons_add]

theorem sum_size_update (ch : Fin (2 ^ d) → Tree K D d) (c : Fin (2 ^ d)) (t : Tree K D d) :
    (∑ i, (Function.update ch c t i).size) + (ch c).size = (∑ i, (ch i).size) + t.size := by
  rw [← Finset.add_sum_erase _ _ (Finset.mem_univ c), ← Finset.add_sum_erase Finset.univ (fun i => (ch i).size) (Finset.mem_univ c),
    Function.update_self]
  have : ∑ i ∈ Finset.univ.erase c, (Function.update ch c t i).size = ∑ i ∈ Finset.univ.erase c, (ch i).size :=
    Finset.sum_congr rfl fun i hi => by rw [Function.update_of_ne (Finset.ne_of_mem_erase hi)]
  rw [this]; omega

/-- Replacing a child by a well-formed one with one datum more. -/
theorem wf_update (lo : Fin d → K) (k n : Nat) (ch : Fin (2 ^ d) → Tree K D d) (c : Fin (2 ^ d)) (t : Tree K D d) (n' : Nat)
    (h : WF I (.node lo k n ch)) (ht : WF I t) (hl : t.level = (ch c).level) (hlo : t.lo = (ch c).lo)
    (hn : n' + (ch c).size = n + t.size) : WF I (.node lo k n' (Function.update ch c t)) := by
  obtain ⟨k', hk, hn0, hch⟩ := h
  refine ⟨k', hk, ?_, fun i => ?_⟩
  · have := sum_size_update ch c t
    omega
  · by_cases hic : i = c
    · subst hic
      rw [Function.update_self]
      exact ⟨hl.trans (hch i).1, hlo.trans (hch i).2.1, ht⟩
    · rw [Function.update_of_ne hic]
      exact hch i

theorem insertLeaf_spec [FloorRing K] (hm : 0 < I.mn) (x : D) (k : Nat) :
    ∀ (lo : Fin d → K) (data : List D), (∀ y ∈ data, inside lo (I.sz k) (I.pos y)) → inside lo (I.sz k) (I.pos x) →
      ∃ t, insertLeaf I x lo k data = some t ∧ WF I t ∧ t.lo = lo ∧ t.level = k ∧ items t = x ::ₘ (data : Multiset D) := by
  have hleaf : ∀ (lo : Fin d → K) (k : Nat) (data : List D), (∀ y ∈ data, inside lo (I.sz k) (I.pos y)) → inside lo (I.sz k) (I.pos x) →
      WF I (.leaf lo k (data ++ [x])) := by
    intro lo k data h1 h2 y hy
    rw [List.mem_append, List.mem_singleton] at hy
    rcases hy with hy | rfl
    · exact h1 y hy
    · exact h2
  have hitems : ∀ (lo : Fin d → K) (k : Nat) (data : List D), items (.leaf lo k (data ++ [x])) = x ::ₘ (data : Multiset D) := by
    intro lo k data
    simp only [items]
    rw [Multiset.cons_coe]
    exact Multiset.coe_eq_coe.2 (List.perm_append_singleton x data)
  induction k with
  | zero =>
    intro lo data h1 h2
    refine ⟨_, by rw [insertLeaf], hleaf lo 0 data h1 h2, rfl, rfl, hitems lo 0 data⟩
  | succ k ih =>
    intro lo data h1 h2
    cases data with
    | nil => exact ⟨.leaf lo (k + 1) ([] ++ [x]), by rw [insertLeaf]; rfl, hleaf lo (k + 1) [] h1 h2, rfl, rfl, hitems lo (k + 1) []⟩
    | cons y ys =>
      rw [insertLeaf]
      by_cases hs : inside (smallestLo I (I.pos y)) I.mn (I.pos x)
      · rw [if_pos hs]
        exact ⟨_, rfl, hleaf lo (k + 1) (y :: ys) h1 h2, rfl, rfl, hitems lo (k + 1) (y :: ys)⟩
      · rw [if_neg hs]
        obtain ⟨f, ef, f1, f2⟩ := distribute_spec I lo k (fun _ => []) (y :: ys) (fun _ => []) h1 (by simp)
        obtain ⟨c, ec, cin⟩ := firstInside_exists I lo k (branch I lo k fun _ => []) (branch_geom I lo k _) (I.pos x) h2
        obtain ⟨t, et, wt, tlo, tl, ti⟩ := ih (childLo lo (I.sz k) c) (f c) (f1 c) cin
        rw [ef, ec]
        simp only [et, Option.map_some]
        have hw0 : WF I (.node lo (k + 1) (∑ i, (f i).length) (branch I lo k f)) :=
          ⟨k, rfl, rfl, fun i => ⟨rfl, rfl, f1 i⟩⟩
        refine ⟨_, rfl, ?_, rfl, rfl, ?_⟩
        · refine wf_update I lo (k + 1) _ (branch I lo k f) c t _ hw0 wt tl tlo ?_
          rw [size_eq I t wt, ti]
          simp [branch, Tree.size]
          omega
        · have := sum_update (branch I lo k f) c t x ti
          simp only [items] at this ⊢
          rw [this]
          congr 1
          have h3 : (∑ i, items (branch I lo k f i)) = ∑ i, (f i : Multiset D) := rfl
          rw [h3, f2]
          simp

theorem insert_spec [FloorRing K] (hm : 0 < I.mn) (x : D) (t : Tree K D d) (h : WF I t) (hx : inside t.lo (I.sz t.level) (I.pos x)) :
    ∃ t', insert I x t = some t' ∧ WF I t' ∧ t'.lo = t.lo ∧ t'.level = t.level ∧ items t' = x ::ₘ items t ∧
      (t.isLeaf = false → t'.isLeaf = false) := by
  induction t with
  | leaf lo k data =>
    obtain ⟨t', e, w, l1, l2, hi⟩ := insertLeaf_spec I hm x k lo data h hx
    exact ⟨t', e, w, l1, l2, hi, fun hh => absurd hh (by simp [Tree.isLeaf])⟩
  | node lo k n ch ih =>
    have hw := h
    obtain ⟨k', rfl, hn, hch⟩ := h
    obtain ⟨c, ec, cin⟩ := firstInside_exists I lo k' ch (fun i => ⟨(hch i).1, (hch i).2.1⟩) (I.pos x) hx
    obtain ⟨t', e, w, l1, l2, hi, -⟩ := ih c (hch c).2.2 (by rw [(hch c).1, (hch c).2.1]; exact cin)
    refine ⟨.node lo (k' + 1) (n + 1) (Function.update ch c t'), ?_, ?_, rfl, rfl, ?_, fun _ => rfl⟩
    · rw [insert, ec]
      simp only [e, Option.map_some]
    · refine wf_update I lo _ n ch c t' _ hw w l2 l1 ?_
      rw [size_eq I t' w, hi, Multiset.card_cons, ← size_eq I (ch c) (hch c).2.2]
      omega
    · simp only [items]
      exact sum_update ch c t' x hi

/-! ### growing the root -/

/-- The root: a well-formed box with children, centred at the origin. -/
def Root (t : Tree K D d) : Prop :=
  WF I t ∧ ∃ (k' n : Nat) (ch : Fin (2 ^ d) → Tree K D d), t = .node (fun _ => -I.sz k') (k' + 1) n ch

theorem root_init : Root I (init I : Tree K D d) ∧ items (init I : Tree K D d) = 0 := by
  have hsz : I.sz 0 = I.mn := by simp [Idx.sz]
  refine ⟨⟨⟨0, rfl, by simp [branch, Tree.size], fun i => ⟨rfl, rfl, by intro y hy; simp at hy⟩⟩, 0, 0, _, by rw [init, hsz]⟩, ?_⟩
  simp [init, items, branch]

theorem center_int (hm : 0 < I.mn) (k' : Nat) (old : Tree K D d) (i : Fin (2 ^ d)) (hl : old.level = k')
    (hlo : old.lo = childLo (fun _ => -I.sz k') (I.sz k') i) :
    Int' (childLo (fun _ => -I.sz (k' + 1)) (I.sz (k' + 1)) i) (I.sz (k' + 1)) (center I old) := by
  intro t
  have ha := sz_pos I hm k'
  unfold center
  rw [hl, hlo, sz_succ]
  unfold childLo
  split <;> constructor <;> linarith

theorem Int'.inside {lo : Fin d → K} {s : K} {p : Fin d → K} (h : Int' lo s p) : inside lo s p := fun i => ⟨(h i).1.le, (h i).2.le⟩

theorem sub_lo (hm : 0 < I.mn) (k' : Nat) (old : Tree K D d) (i j : Fin (2 ^ d)) (hl : old.level = k')
    (hlo : old.lo = childLo (fun _ => -I.sz k') (I.sz k') i)
    (hj : inside (childLo (childLo (fun _ => -I.sz (k' + 1)) (I.sz (k' + 1)) i) (I.sz k') j) (I.sz k') (center I old)) :
    childLo (childLo (fun _ => -I.sz (k' + 1)) (I.sz (k' + 1)) i) (I.sz k') j = old.lo := by
  funext t
  have ha := sz_pos I hm k'
  have h := hj t
  unfold center at h
  rw [hl, hlo, sz_succ] at h
  rw [hlo, sz_succ]
  unfold childLo at h ⊢
  cases hbi : i.val.testBit t <;> cases hbj : j.val.testBit t <;> simp only [hbi, hbj] at h ⊢ <;> simp at h ⊢ <;>
    first | linarith [h.1, h.2] | skip

/-- State of the loop that hangs the old children below the new root; `S` are the ones done. -/
def GInv (k' : Nat) (ch : Fin (2 ^ d) → Tree K D d) (S : Fin (2 ^ d) → Prop) (s : (Fin (2 ^ d) → Tree K D d) × Nat) : Prop :=
  (∀ i, (s.1 i).level = k' + 1 ∧ (s.1 i).lo = childLo (fun _ => -I.sz (k' + 1)) (I.sz (k' + 1)) i ∧ WF I (s.1 i)) ∧
  (∀ i, ¬ S i → s.1 i = .leaf (childLo (fun _ => -I.sz (k' + 1)) (I.sz (k' + 1)) i) (k' + 1) []) ∧
  (∀ i, S i → items (s.1 i) = items (ch i)) ∧ s.2 = ∑ i, (s.1 i).size

theorem rehang_inv (hm : 0 < I.mn) (k' : Nat) (ch : Fin (2 ^ d) → Tree K D d)
    (hch : ∀ i, (ch i).level = k' ∧ (ch i).lo = childLo (fun _ => -I.sz k') (I.sz k') i ∧ WF I (ch i))
    (S : Fin (2 ^ d) → Prop) (s : (Fin (2 ^ d) → Tree K D d) × Nat) (h : GInv I k' ch S s) (i : Fin (2 ^ d)) (hi : ¬ S i) :
    ∃ s', rehang I (k' + 1) s.1 s.2 (ch i) = some s' ∧ GInv I k' ch (fun j => S j ∨ j = i) s' := by
  obtain ⟨h1, h2, h3, h4⟩ := h
  have hint := center_int I hm k' (ch i) i (hch i).1 (hch i).2.1
  obtain ⟨c, ec, cin⟩ := firstInside_exists I (fun _ => -I.sz (k' + 1)) (k' + 1) s.1 (fun j => ⟨(h1 j).1, (h1 j).2.1⟩)
    (center I (ch i)) (inside_child I hm _ (k' + 1) i _ hint.inside)
  have hci : c = i := sep _ _ c i _ cin hint
  subst hci
  unfold rehang
  rw [ec]
  simp only
  by_cases hs : (ch c).size = 0
  · rw [if_pos hs]
    refine ⟨s, rfl, h1, fun j hj => h2 j fun hh => hj (Or.inl hh), fun j hj => ?_, h4⟩
    rcases hj with hj | rfl
    · exact h3 j hj
    · rw [h2 j hi]
      have := size_eq I (ch j) (hch j).2.2
      rw [hs] at this
      rw [Multiset.card_eq_zero.1 this.symm]
      simp [items]
  · rw [if_neg hs, h2 c hi]
    simp only
    set sub := branch I (childLo (fun _ => -I.sz (k' + 1)) (I.sz (k' + 1)) c) k' (fun _ => ([] : List D)) with hsub
    obtain ⟨j, ej, jin⟩ := firstInside_exists I (childLo (fun _ => -I.sz (k' + 1)) (I.sz (k' + 1)) c) k' sub
      (branch_geom I _ k' _) (center I (ch c)) hint.inside
    rw [ej]
    simp only
    have hlo := sub_lo I hm k' (ch c) c j (hch c).1 (hch c).2.1 jin
    have hsub0 : WF I (.node (childLo (fun _ => -I.sz (k' + 1)) (I.sz (k' + 1)) c) (k' + 1) 0 sub) :=
      ⟨k', rfl, by simp [hsub, branch, Tree.size], fun i => ⟨rfl, rfl, by intro y hy; simp at hy⟩⟩
    have hwf := wf_update I _ _ 0 sub j (ch c) (ch c).size hsub0 (hch c).2.2 (by rw [(hch c).1]; rfl) (hlo.symm)
      (by simp [hsub, branch, Tree.size])
    have hit : items (.node (childLo (fun _ => -I.sz (k' + 1)) (I.sz (k' + 1)) c) (k' + 1) (ch c).size
        (Function.update sub j (ch c))) = items (ch c) := by
      simp only [items]
      rw [← Finset.add_sum_erase _ _ (Finset.mem_univ j), Function.update_self]
      have : ∑ i ∈ Finset.univ.erase j, items (Function.update sub j (ch c) i) = 0 := by
        apply Finset.sum_eq_zero
        intro i hi
        rw [Function.update_of_ne (Finset.ne_of_mem_erase hi)]
        rfl
      rw [this, add_zero]
    refine ⟨_, rfl, fun l => ?_, fun l hl => ?_, fun l hl => ?_, ?_⟩
    · by_cases hlc : l = c
      · subst hlc
        simp only [Function.update_self]
        exact ⟨rfl, rfl, hwf⟩
      · simp only [Function.update_of_ne hlc]
        exact h1 l
    · rw [not_or] at hl
      simp only [Function.update_of_ne hl.2]
      exact h2 l hl.1
    · by_cases hlc : l = c
      · subst hlc
        simp only [Function.update_self]
        exact hit
      · simp only [Function.update_of_ne hlc]
        exact h3 l (hl.resolve_right hlc)
    · have := sum_size_update s.1 c (.node (childLo (fun _ => -I.sz (k' + 1)) (I.sz (k' + 1)) c) (k' + 1) (ch c).size
        (Function.update sub j (ch c)))
      rw [h2 c hi, ← h4] at this
      simp only [Tree.size, List.length_nil, add_zero] at this ⊢
      exact this.symm

theorem rehang_fold (hm : 0 < I.mn) (k' : Nat) (ch : Fin (2 ^ d) → Tree K D d)
    (hch : ∀ i, (ch i).level = k' ∧ (ch i).lo = childLo (fun _ => -I.sz k') (I.sz k') i ∧ WF I (ch i)) (l : List (Fin (2 ^ d))) :
    l.Nodup → ∀ (S : Fin (2 ^ d) → Prop) (s : (Fin (2 ^ d) → Tree K D d) × Nat), GInv I k' ch S s → (∀ i ∈ l, ¬ S i) →
      ∃ s', l.foldlM (fun s i => rehang I (k' + 1) s.1 s.2 (ch i)) s = some s' ∧ GInv I k' ch (fun j => S j ∨ j ∈ l) s' := by
  induction l with
  | nil => intro _ S s h _; exact ⟨s, rfl, by simpa using h⟩
  | cons i l ih =>
    intro hnd S s h hS
    rw [List.nodup_cons] at hnd
    obtain ⟨s1, e1, g1⟩ := rehang_inv I hm k' ch hch S s h i (hS i (by simp))
    obtain ⟨s2, e2, g2⟩ := ih hnd.2 _ s1 g1 (fun j hj hh => by
      rcases hh with hh | rfl
      · exact hS j (by simp [hj]) hh
      · exact hnd.1 hj)
    refine ⟨s2, ?_, ?_⟩
    · rw [List.foldlM_cons, e1]; exact e2
    · have : (fun j => (S j ∨ j = i) ∨ j ∈ l) = fun j => S j ∨ j ∈ i :: l := by
        funext j; simp only [List.mem_cons, or_assoc]
      rwa [this] at g2

theorem grow_spec (hm : 0 < I.mn) (t : Tree K D d) (h : Root I t) :
    ∃ t', grow I t = some t' ∧ Root I t' ∧ items t' = items t ∧ t'.level = t.level + 1 := by
  obtain ⟨hw, k', n, ch, rfl⟩ := h
  obtain ⟨k'', hk, hn, hch⟩ := hw
  obtain rfl : k'' = k' := by omega
  have hinit : GInv I k'' ch (fun _ => False) (branch I (fun _ => -I.sz (k'' + 1)) (k'' + 1) (fun _ => []), 0) :=
    ⟨fun i => ⟨rfl, rfl, by intro y hy; simp at hy⟩, fun i _ => rfl, fun i hi => hi.elim, by simp [branch, Tree.size]⟩
  obtain ⟨s', e, g⟩ := rehang_fold I hm k'' ch hch (List.finRange (2 ^ d)) (List.nodup_finRange _) _ _ hinit (fun i _ h => h)
  obtain ⟨g1, g2, g3, g4⟩ := g
  refine ⟨.node (fun _ => -I.sz (k'' + 1)) (k'' + 1 + 1) s'.2 s'.1, ?_, ⟨⟨k'' + 1, rfl, g4, g1⟩, k'' + 1, _, _, rfl⟩, ?_, rfl⟩
  · rw [grow]
    rw [e]
    rfl
  · simp only [items]
    exact Finset.sum_congr rfl fun i _ => g3 i (Or.inr (List.mem_finRange i))

theorem root_inside (t : Tree K D d) (h : Root I t) (k' : Nat) (hk : t.level = k' + 1) (p : Fin d → K) :
    inside t.lo (I.sz t.level) p ↔ ∀ i, -I.sz k' ≤ p i ∧ p i ≤ I.sz k' := by
  obtain ⟨_, k'', n, ch, rfl⟩ := h
  obtain rfl : k'' = k' := by simpa [Tree.level] using hk
  simp only [inside, Tree.lo, Tree.level, sz_succ]
  constructor <;> intro h i <;> have := h i <;> constructor <;> linarith [this.1, this.2]

theorem addData_some [FloorRing K] (hm : 0 < I.mn) (fuel : Nat) : ∀ (t t' : Tree K D d) (x : D), Root I t → addData I fuel t x = some t' →
    Root I t' ∧ items t' = x ::ₘ items t := by
  induction fuel with
  | zero => intro t t' x _ h; simp [addData] at h
  | succ fuel ih =>
    intro t t' x hr h
    rw [addData] at h
    split at h
    · rename_i hin
      obtain ⟨t2, e, w, l1, l2, hi, hl⟩ := insert_spec I hm x t hr.1 hin
      rw [e] at h
      cases h
      refine ⟨⟨w, ?_⟩, hi⟩
      obtain ⟨_, k', n, ch, rfl⟩ := hr
      have hl' := hl rfl
      cases t' with
      | leaf lo k data => simp [Tree.isLeaf] at hl'
      | node lo k n2 ch2 =>
        simp only [Tree.lo, Tree.level] at l1 l2
        subst l1; subst l2
        exact ⟨k', n2, ch2, rfl⟩
    · obtain ⟨t2, e, r2, i2, -⟩ := grow_spec I hm t hr
      rw [e] at h
      obtain ⟨a, b⟩ := ih t2 t' x r2 h
      exact ⟨a, by rw [b, i2]⟩

theorem exists_level [FloorRing K] (hm : 0 < I.mn) (p : Fin d → K) : ∃ N : Nat, ∀ k, N ≤ k → ∀ i, -I.sz k ≤ p i ∧ p i ≤ I.sz k := by
  have harch : Archimedean K := FloorRing.archimedean K
  have h1 : ∀ i, ∃ N : Nat, |p i| ≤ I.sz N := by
    intro i
    obtain ⟨N, hN⟩ := pow_unbounded_of_one_lt (|p i| / I.mn) (one_lt_two)
    refine ⟨N, ?_⟩
    rw [div_lt_iff₀ hm] at hN
    unfold Idx.sz
    linarith
  choose N hN using h1
  refine ⟨∑ i, N i, fun k hk i => ?_⟩
  have h2 : N i ≤ k := (Finset.single_le_sum (fun j _ => Nat.zero_le (N j)) (Finset.mem_univ i)).trans hk
  have h3 : I.sz (N i) ≤ I.sz k := by
    unfold Idx.sz
    exact mul_le_mul_of_nonneg_left (pow_le_pow_right₀ one_le_two h2) hm.le
  exact abs_le.1 ((hN i).trans h3)

theorem addData_total [FloorRing K] (hm : 0 < I.mn) (t : Tree K D d) (h : Root I t) (x : D) :
    ∃ F, ∀ fuel, F ≤ fuel → ∃ t', addData I fuel t x = some t' := by
  obtain ⟨N, hN⟩ := exists_level I hm (I.pos x)
  refine ⟨N + 2, ?_⟩
  have key : ∀ (m fuel : Nat) (t : Tree K D d), Root I t → N + 1 ≤ t.level + m → m + 1 ≤ fuel → ∃ t', addData I fuel t x = some t' := by
    intro m
    induction m with
    | zero =>
      intro fuel t hr hl hf
      obtain ⟨fuel, rfl⟩ := Nat.exists_eq_succ_of_ne_zero (by omega : fuel ≠ 0)
      have hr' := hr
      obtain ⟨_, k', n, ch, rfl⟩ := hr'
      have hin : inside (Tree.node (fun _ => -I.sz k') (k' + 1) n ch).lo (I.sz (Tree.node (fun _ => -I.sz k') (k' + 1) n ch).level) (I.pos x) := by
        rw [root_inside I _ hr k' rfl]
        exact hN k' (by simp only [Tree.level] at hl; omega)
      rw [addData, if_pos hin]
      obtain ⟨t2, e, _⟩ := insert_spec I hm x _ hr.1 hin
      exact ⟨t2, e⟩
    | succ m ih =>
      intro fuel t hr hl hf
      obtain ⟨fuel, rfl⟩ := Nat.exists_eq_succ_of_ne_zero (by omega : fuel ≠ 0)
      rw [addData]
      split
      · rename_i hin
        obtain ⟨t2, e, _⟩ := insert_spec I hm x t hr.1 hin
        exact ⟨t2, e⟩
      · obtain ⟨t2, e, r2, i2, l2⟩ := grow_spec I hm t hr
        rw [e]
        exact ih fuel t2 r2 (by omega) (by omega)
  intro fuel hf
  exact key (N + 1) fuel t h (by omega) (by omega)

/-! ### removal -/

theorem eraseData_perm [DecidableEq D] (data : List D) (x : D) (hx : x ∈ data) : ((eraseData data x : List D) : Multiset D) = (data : Multiset D).erase x := by
  have hne : data ≠ [] := List.ne_nil_of_mem hx
  obtain ⟨l, b, rfl⟩ : ∃ l b, data = l ++ [b] := ⟨data.dropLast, data.getLast hne, (List.dropLast_append_getLast hne).symm⟩
  have hun : eraseData (l ++ [b]) x = ((l ++ [b]).set ((l ++ [b]).idxOf x) b).dropLast := by
    unfold eraseData
    simp
  rw [hun, Multiset.coe_erase, Multiset.coe_eq_coe]
  by_cases hxl : x ∈ l
  · rw [List.idxOf_append_of_mem hxl, List.set_append_left _ _ (List.idxOf_lt_length_iff.2 hxl), List.dropLast_concat]
    rw [List.erase_append_left _ hxl]
    obtain ⟨l1, l2, rfl, hx1⟩ := List.eq_append_cons_of_mem hxl
    rw [List.idxOf_append_of_notMem hx1, List.idxOf_cons_self, List.erase_append_right _ hx1, List.erase_cons_head]
    rw [List.set_append_right _ _ (by omega)]
    simp only [Nat.add_zero, Nat.sub_self, List.set_cons_zero]
    rw [List.append_assoc]
    exact List.Perm.append_left l1 (List.perm_append_singleton b l2).symm
  · have hxb : x = b := by simpa [hxl] using hx
    subst hxb
    rw [List.idxOf_append_of_notMem hxl, List.idxOf_cons_self, List.set_append_right _ _ (by omega)]
    rw [List.erase_append_right _ hxl]
    simp

theorem onlyChild_spec (lo : Fin d → K) (k n : Nat) (ch : Fin (2 ^ d) → Tree K D d) (hm : 0 < I.mn) (h : WF I (.node lo k n ch)) (l : List D)
    (ho : onlyChild ch = some l) : WF I (.leaf lo k l) ∧ items (.leaf lo k l) = ∑ i, items (ch i) := by
  unfold onlyChild at ho
  split at ho
  · rename_i hall
    rw [List.all_eq_true] at hall
    split at ho
    · rename_i i hf
      cases ho
      have hi : items (.leaf lo k (ch i).data) = ∑ i, items (ch i) := by
        rw [← Finset.add_sum_erase _ _ (Finset.mem_univ i)]
        have h0 : ∑ j ∈ Finset.univ.erase i, items (ch j) = 0 := by
          apply Finset.sum_eq_zero
          intro j hj
          have hji := Finset.ne_of_mem_erase hj
          have hnot : j ∉ (List.finRange (2 ^ d)).filter fun i => decide (0 < (ch i).size) := by
            rw [hf]; simpa using hji
          rw [List.mem_filter] at hnot
          have hsz : (ch j).size = 0 := by
            by_contra hcon
            exact hnot ⟨List.mem_finRange j, by simpa using Nat.pos_of_ne_zero hcon⟩
          obtain ⟨k', rfl, hn, hch⟩ := h
          rw [size_eq I _ (hch j).2.2] at hsz
          exact Multiset.card_eq_zero.1 hsz
        rw [h0, add_zero]
        have hleaf := hall i (List.mem_finRange i)
        cases hc : ch i with
        | leaf lo' k' l' => rfl
        | node => rw [hc] at hleaf; simp [Tree.isLeaf] at hleaf
      refine ⟨?_, hi⟩
      intro y hy
      have hy' : y ∈ items (.node lo k n ch) := by
        simp only [items]
        rw [← hi]
        simpa [items] using hy
      exact inside_of_mem I hm _ h y hy'
    · exact absurd ho (by simp)
  · exact absurd ho (by simp)

theorem erase_sum [DecidableEq D] (ch : Fin (2 ^ d) → Tree K D d) (c : Fin (2 ^ d)) (t : Tree K D d) (x : D) (hx : x ∈ items (ch c))
    (h : items t = (items (ch c)).erase x) : (∑ i, items (Function.update ch c t i)) = (∑ i, items (ch i)).erase x := by
  rw [← Finset.add_sum_erase _ _ (Finset.mem_univ c), ← Finset.add_sum_erase Finset.univ (fun i => items (ch i)) (Finset.mem_univ c),
    Function.update_self, h]
  have : ∑ i ∈ Finset.univ.erase c, items (Function.update ch c t i) = ∑ i ∈ Finset.univ.erase c, items (ch i) :=
    Finset.sum_congr rfl fun i hi => by rw [Function.update_of_ne (Finset.ne_of_mem_erase hi)]
  rw [this, Multiset.erase_add_left_pos _ hx]

theorem removeRec_spec [DecidableEq D] (hm : 0 < I.mn) (x : D) (t : Tree K D d) : ∀ isRoot, WF I t → inside t.lo (I.sz t.level) (I.pos x) →
    ∃ found t' check, removeRec I x t isRoot = some (found, t', check) ∧ WF I t' ∧ t'.lo = t.lo ∧ t'.level = t.level ∧
      (found = true → x ∈ items t ∧ items t' = (items t).erase x) ∧ (found = false → t' = t ∧ check = false) ∧
      (isRoot = true → t.isLeaf = false → t'.isLeaf = false) := by
  induction t with
  | leaf lo k data =>
    intro isRoot h hx
    rw [removeRec]
    by_cases hmem : x ∈ data
    · rw [if_pos hmem]
      refine ⟨true, _, true, rfl, ?_, rfl, rfl, fun _ => ⟨by simpa [items] using hmem, ?_⟩, by simp, fun _ hh => absurd hh (by simp [Tree.isLeaf])⟩
      · intro y hy
        apply h
        have : y ∈ ((eraseData data x : List D) : Multiset D) := hy
        rw [eraseData_perm data x hmem] at this
        exact Multiset.mem_of_mem_erase this
      · simp only [items]; exact eraseData_perm data x hmem
    · rw [if_neg hmem]
      exact ⟨false, _, false, rfl, h, rfl, rfl, by simp, by simp, fun _ hh => absurd hh (by simp [Tree.isLeaf])⟩
  | node lo k n ch ih =>
    intro isRoot h hx
    have hw := h
    obtain ⟨k', rfl, hn, hch⟩ := h
    obtain ⟨c, ec, cin⟩ := firstInside_exists I lo k' ch (fun i => ⟨(hch i).1, (hch i).2.1⟩) (I.pos x) hx
    obtain ⟨found, t1, check, e, w, l1, l2, hf, hnf, -⟩ := ih c false (hch c).2.2 (by rw [(hch c).1, (hch c).2.1]; exact cin)
    rw [removeRec, ec]
    simp only [e]
    cases found with
    | false =>
      obtain ⟨rfl, rfl⟩ := hnf rfl
      have hup : Function.update ch c (ch c) = ch := Function.update_eq_self c ch
      simp only [hup, Bool.false_eq_true, false_and, if_false]
      exact ⟨false, _, false, rfl, hw, rfl, rfl, by simp, by simp, fun _ _ => rfl⟩
    | true =>
      obtain ⟨hxc, hit⟩ := hf rfl
      have hw' : WF I (.node lo (k' + 1) (n - 1) (Function.update ch c t1)) := by
        refine wf_update I lo _ n ch c t1 _ hw w l2 l1 ?_
        have h1 : t1.size + 1 = (ch c).size := by
          rw [size_eq I t1 w, hit, size_eq I _ (hch c).2.2]
          exact Multiset.card_erase_add_one hxc
        have h2 : (ch c).size ≤ n := by
          rw [hn]
          exact Finset.single_le_sum (f := fun i => (ch i).size) (fun j _ => Nat.zero_le _) (Finset.mem_univ c)
        omega
      have hits : items (.node lo (k' + 1) (n - 1) (Function.update ch c t1)) = (items (.node lo (k' + 1) n ch)).erase x := by
        simp only [items]
        exact erase_sum ch c t1 x hxc hit
      have hxin : x ∈ items (.node lo (k' + 1) n ch) := mem_items_node.2 ⟨c, hxc⟩
      simp only [if_true]
      by_cases hck : check = true ∧ isRoot = false
      · rw [if_pos hck]
        cases ho : onlyChild (Function.update ch c t1) with
        | none => exact ⟨true, _, false, rfl, hw', rfl, rfl, fun _ => ⟨hxin, hits⟩, by simp, fun _ _ => rfl⟩
        | some l =>
          obtain ⟨wl, il⟩ := onlyChild_spec I lo (k' + 1) _ _ hm hw' l ho
          refine ⟨true, _, true, rfl, wl, rfl, rfl, fun _ => ⟨hxin, ?_⟩, by simp, fun hh => ?_⟩
          · rw [il, ← hits]; rfl
          · rw [hck.2] at hh; exact absurd hh (by decide)
      · rw [if_neg hck]
        exact ⟨true, _, false, rfl, hw', rfl, rfl, fun _ => ⟨hxin, hits⟩, by simp, fun _ _ => rfl⟩

/-- A point no coordinate of which is a multiple of the minimal box size. -/
def OffGrid (p : Fin d → K) : Prop := ∀ (t : Fin d) (z : ℤ), p t ≠ z * I.mn

/-- A corner on the grid. -/
def OnGrid (lo : Fin d → K) : Prop := ∀ t : Fin d, ∃ z : ℤ, lo t = z * I.mn

theorem onGrid_child (lo : Fin d → K) (h : OnGrid I lo) (k : Nat) (i : Fin (2 ^ d)) : OnGrid I (childLo lo (I.sz k) i) := by
  intro t
  obtain ⟨z, hz⟩ := h t
  unfold childLo
  split
  · refine ⟨z + 2 ^ k, ?_⟩
    rw [hz]; unfold Idx.sz; push_cast; ring
  · exact ⟨z, by rw [hz, add_zero]⟩

theorem int_of_offGrid (lo : Fin d → K) (h : OnGrid I lo) (k : Nat) (p : Fin d → K) (hp : OffGrid I p) (hin : inside lo (I.sz k) p) :
    Int' lo (I.sz k) p := by
  intro t
  obtain ⟨z, hz⟩ := h t
  refine ⟨lt_of_le_of_ne (hin t).1 ?_, lt_of_le_of_ne (hin t).2 ?_⟩
  · rw [hz]; exact (hp t z).symm
  · rw [hz]
    have := hp t (z + 2 ^ k)
    push_cast at this
    unfold Idx.sz
    rwa [show (z : K) * I.mn + I.mn * 2 ^ k = (z + 2 ^ k) * I.mn by ring]

theorem removeRec_found [DecidableEq D] (hm : 0 < I.mn) (x : D) (hx : OffGrid I (I.pos x)) (t : Tree K D d) : ∀ isRoot, WF I t → OnGrid I t.lo → x ∈ items t →
    ∃ t' check, removeRec I x t isRoot = some (true, t', check) := by
  induction t with
  | leaf lo k data =>
    intro isRoot h _ hmem
    rw [removeRec, if_pos (by simpa [items] using hmem)]
    exact ⟨_, _, rfl⟩
  | node lo k n ch ih =>
    intro isRoot h hg hmem
    have hw := h
    obtain ⟨k', rfl, hn, hch⟩ := h
    obtain ⟨j, hj⟩ := mem_items_node.1 hmem
    have hin := inside_of_mem I hm _ hw x hmem
    obtain ⟨c, ec, cin⟩ := firstInside_exists I lo k' ch (fun i => ⟨(hch i).1, (hch i).2.1⟩) (I.pos x) hin
    have hgc : OnGrid I (childLo lo (I.sz k') c) := onGrid_child I lo hg k' c
    have hjin := inside_of_mem I hm _ (hch j).2.2 x hj
    rw [(hch j).1, (hch j).2.1] at hjin
    have hjc : j = c := sep lo (I.sz k') j c _ hjin (int_of_offGrid I _ hgc k' _ hx cin)
    subst hjc
    obtain ⟨t', check, e⟩ := ih j false (hch j).2.2 (by rw [(hch j).2.1]; exact hgc) hj
    rw [removeRec, ec]
    simp only [e]
    split
    · cases onlyChild (Function.update ch j t') with
      | none => exact ⟨_, _, rfl⟩
      | some l => exact ⟨_, _, rfl⟩
    · exact ⟨_, _, rfl⟩

theorem root_onGrid (t : Tree K D d) (h : Root I t) : OnGrid I t.lo := by
  obtain ⟨_, k', n, ch, rfl⟩ := h
  intro i
  refine ⟨-2 ^ k', ?_⟩
  simp only [Tree.lo, Idx.sz]
  push_cast
  ring

/-! ### queries -/

theorem descend_wf (qmin qmax : Fin d → K) (t : Tree K D d) (h : WF I t) :
    WF I (descend I qmin qmax t) ∧ items (descend I qmin qmax t) ≤ items t := by
  induction t with
  | leaf lo k data => exact ⟨h, le_rfl⟩
  | node lo k n ch ih =>
    rw [descend]
    split
    · exact ⟨h, le_rfl⟩
    · rename_i i _
      obtain ⟨k', rfl, hn, hch⟩ := h
      obtain ⟨w, l⟩ := ih i (hch i).2.2
      refine ⟨w, l.trans ?_⟩
      simp only [items]
      exact Finset.single_le_sum (f := fun i => items (ch i)) (fun j _ => Multiset.zero_le _) (Finset.mem_univ i)

theorem descend_count [DecidableEq D] (hm : 0 < I.mn) (qmin qmax : Fin d → K) (t : Tree K D d) (h : WF I t) (y : D)
    (hy : ∀ i, qmin i < I.pos y i ∧ I.pos y i < qmax i) :
    (items (descend I qmin qmax t)).count y = (items t).count y := by
  induction t with
  | leaf lo k data => rfl
  | node lo k n ch ih =>
    rw [descend]
    split
    · rfl
    · rename_i i hf
      obtain ⟨k', rfl, hn, hch⟩ := h
      rw [ih i (hch i).2.2]
      have hfs := List.find?_some hf
      simp only [decide_eq_true_eq] at hfs
      rw [(hch i).1, (hch i).2.1] at hfs
      have hint : Int' (childLo lo (I.sz k') i) (I.sz k') (I.pos y) := fun t =>
        ⟨(hfs.1 t).1.trans_lt (hy t).1, (hy t).2.trans_le (hfs.2 t).2⟩
      simp only [items]
      rw [Multiset.count_sum']
      rw [← Finset.add_sum_erase _ _ (Finset.mem_univ i)]
      have h0 : ∑ j ∈ Finset.univ.erase i, (items (ch j)).count y = 0 := by
        apply Finset.sum_eq_zero
        intro j hj
        apply Multiset.count_eq_zero_of_notMem
        intro hmem
        have hjin := inside_of_mem I hm _ (hch j).2.2 y hmem
        rw [(hch j).1, (hch j).2.1] at hjin
        exact Finset.ne_of_mem_erase hj (sep lo (I.sz k') j i _ hjin hint)
      rw [h0, add_zero]

theorem collect_count [DecidableEq D] (hm : 0 < I.mn) (qmin qmax : Fin d → K) (t : Tree K D d) (h : WF I t) (y : D) :
    (collect I qmin qmax t).count y = if inQuery qmin qmax (I.pos y) then (items t).count y else 0 := by
  induction t with
  | leaf lo k data =>
    rw [collect]
    simp only [items, Multiset.coe_count]
    by_cases hwhole : inQuery qmin qmax (fun i => lo i + I.sz k) ∧ inQuery qmin qmax lo
    · rw [if_pos hwhole]
      by_cases hin : inQuery qmin qmax (I.pos y)
      · rw [if_pos hin]
      · rw [if_neg hin, List.count_eq_zero]
        intro hmem
        apply hin
        intro i
        have := h y hmem i
        exact ⟨this.2.trans (hwhole.1 i).1, (hwhole.2 i).2.trans this.1⟩
    · rw [if_neg hwhole]
      by_cases hin : inQuery qmin qmax (I.pos y)
      · rw [if_pos hin, List.count_filter (by simpa using hin)]
      · rw [if_neg hin, List.count_eq_zero]
        intro hmem
        rw [List.mem_filter] at hmem
        exact hin (by simpa using hmem.2)
  | node lo k n ch ih =>
    rw [collect]
    obtain ⟨k', rfl, hn, hch⟩ := h
    rw [List.count_flatMap]
    have hfilter : ∀ l : List (Fin (2 ^ d)),
        (((l.filter fun i => decide (0 < (ch i).size)).map (List.count y ∘ fun i => collect I qmin qmax (ch i))).sum : Nat)
          = (l.map fun i => if inQuery qmin qmax (I.pos y) then (items (ch i)).count y else 0).sum := by
      intro l
      induction l with
      | nil => rfl
      | cons i l ihl =>
        rw [List.filter_cons]
        by_cases hs : 0 < (ch i).size
        · rw [if_pos (by simpa using hs), List.map_cons, List.sum_cons, ihl, List.map_cons, List.sum_cons]
          simp only [Function.comp]
          rw [ih i (hch i).2.2]
        · rw [if_neg (by simpa using hs), ihl, List.map_cons, List.sum_cons]
          have : items (ch i) = 0 := by
            apply Multiset.card_eq_zero.1
            rw [← size_eq I _ (hch i).2.2]; omega
          rw [this]
          simp
    rw [hfilter]
    simp only [items]
    rw [Multiset.count_sum', ← Fin.sum_univ_def]
    split
    · rfl
    · simp

/-- The Euclidean norm, by its defining properties. -/
structure IsNorm (nrm : (Fin d → K) → K) : Prop where
  nonneg : ∀ v, 0 ≤ nrm v
  sq : ∀ v, nrm v * nrm v = ∑ i, v i * v i

theorem IsNorm.abs_le {nrm : (Fin d → K) → K} (h : IsNorm nrm) (v : Fin d → K) (i : Fin d) : |v i| ≤ nrm v := by
  apply abs_le_of_sq_le_sq _ (h.nonneg v)
  rw [pow_two, pow_two, h.sq]
  exact Finset.single_le_sum (f := fun i => v i * v i) (fun j _ => mul_self_nonneg _) (Finset.mem_univ i)

theorem anyDatum_spec (t : Tree K D d) (h : WF I t) (hs : 0 < t.size) : ∃ y, anyDatum t = some y ∧ y ∈ items t := by
  induction t with
  | leaf lo k data =>
    cases data with
    | nil => simp [Tree.size] at hs
    | cons y ys => exact ⟨y, rfl, by simp [items]⟩
  | node lo k n ch ih =>
    obtain ⟨k', rfl, hn, hch⟩ := h
    have hex : ∃ i, 0 < (ch i).size := by
      by_contra hcon
      push Not at hcon
      have : n = 0 := by
        rw [hn]
        exact Finset.sum_eq_zero fun i _ => by have := hcon i; omega
      simp only [Tree.size] at hs
      omega
    rw [anyDatum]
    split
    · rename_i hnone
      rw [List.find?_eq_none] at hnone
      obtain ⟨i, hi⟩ := hex
      exact absurd (by simpa using hi) (hnone i (List.mem_finRange i))
    · rename_i i hf
      obtain ⟨y, e, m⟩ := ih i (hch i).2.2 (by simpa using List.find?_some hf)
      exact ⟨y, e, mem_items_node.2 ⟨i, m⟩⟩

theorem seed_spec (q : Fin d → K) (t : Tree K D d) (h : WF I t) (hq : inside t.lo (I.sz t.level) q) (hs : 0 < t.size) :
    ∃ y, seed I q t = some y ∧ y ∈ items t := by
  induction t with
  | leaf lo k data =>
    cases data with
    | nil => simp [Tree.size] at hs
    | cons y ys => exact ⟨y, rfl, by simp [items]⟩
  | node lo k n ch ih =>
    have hw := h
    obtain ⟨k', rfl, hn, hch⟩ := h
    obtain ⟨c, ec, cin⟩ := firstInside_exists I lo k' ch (fun i => ⟨(hch i).1, (hch i).2.1⟩) q hq
    rw [seed, ec]
    simp only
    by_cases hc : 0 < (ch c).size
    · rw [if_pos hc]
      obtain ⟨y, e, m⟩ := ih c (hch c).2.2 (by rw [(hch c).1, (hch c).2.1]; exact cin) hc
      exact ⟨y, e, mem_items_node.2 ⟨c, m⟩⟩
    · rw [if_neg hc]
      exact anyDatum_spec I _ hw hs

/-- What a traversal achieves: the result is a datum of `M` with its distance, no worse than before and than any datum of `X`. -/
def VOk (nd : D → K) (M X : Multiset D) (s s' : D × K) : Prop :=
  s'.1 ∈ M ∧ s'.2 = nd s'.1 ∧ s'.2 ≤ s.2 ∧ ∀ y ∈ X, s'.2 ≤ nd y

theorem visit_leaf (nd : D → K) (M : Multiset D) (data : List D) : ∀ s : D × K, s.1 ∈ M → s.2 = nd s.1 → (∀ y ∈ data, y ∈ M) →
    VOk nd M (data : Multiset D) s (data.foldl (fun s y => if nd y < s.2 then (y, nd y) else s) s) := by
  induction data with
  | nil => intro s h1 h2 _; exact ⟨h1, h2, le_rfl, by simp⟩
  | cons y ys ih =>
    intro s h1 h2 hM
    rw [List.foldl_cons]
    by_cases hlt : nd y < s.2
    · rw [if_pos hlt]
      obtain ⟨a, b, c, e⟩ := ih (y, nd y) (hM y (by simp)) rfl (fun z hz => hM z (by simp [hz]))
      refine ⟨a, b, c.trans hlt.le, fun z hz => ?_⟩
      rcases List.mem_cons.1 (Multiset.mem_coe.1 hz) with rfl | hz
      · exact c
      · exact e z (Multiset.mem_coe.2 hz)
    · rw [if_neg hlt]
      obtain ⟨a, b, c, e⟩ := ih s h1 h2 (fun z hz => hM z (by simp [hz]))
      refine ⟨a, b, c, fun z hz => ?_⟩
      rcases List.mem_cons.1 (Multiset.mem_coe.1 hz) with rfl | hz
      · exact c.trans (not_lt.1 hlt)
      · exact e z (Multiset.mem_coe.2 hz)

theorem far_of_not_within (hm : 0 < I.mn) (nrm : (Fin d → K) → K) (hnrm : IsNorm nrm) (t : Tree K D d) (h : WF I t) (q : Fin d → K) (r : K)
    (hw : ¬ withinDistance I t q r) (y : D) (hy : y ∈ items t) : r ≤ nrm fun i => I.pos y i - q i := by
  by_contra hcon
  rw [not_le] at hcon
  apply hw
  intro i
  have h1 := hnrm.abs_le (fun i => I.pos y i - q i) i
  have h2 := abs_le.1 (h1.trans hcon.le)
  have h3 := inside_of_mem I hm t h y hy i
  simp only [center] at *
  constructor <;> linarith [h2.1, h2.2, h3.1, h3.2]

theorem visit_spec (hm : 0 < I.mn) (nrm : (Fin d → K) → K) (hnrm : IsNorm nrm) (q : Fin d → K) (M : Multiset D) (t : Tree K D d) (h : WF I t) :
    ∀ s : D × K, s.1 ∈ M → s.2 = (nrm fun i => I.pos s.1 i - q i) → (∀ y ∈ items t, y ∈ M) →
      VOk (fun z => nrm fun i => I.pos z i - q i) M (items t) s (visit I (fun z => nrm fun i => I.pos z i - q i) q t s) := by
  induction t with
  | leaf lo k data =>
    intro s h1 h2 hM
    rw [visit]
    exact visit_leaf _ M data s h1 h2 (fun y hy => hM y (by simpa [items] using hy))
  | node lo k n ch ih =>
    intro s h1 h2 hM
    obtain ⟨k', rfl, hn, hch⟩ := h
    rw [visit]
    set nd : D → K := fun z => nrm fun i => I.pos z i - q i with hnd
    have hfold : ∀ (l : List (Fin (2 ^ d))) (s0 : D × K), s0.1 ∈ M → s0.2 = nd s0.1 →
        VOk nd M (l.map fun i => items (ch i)).sum s0 (l.foldl (fun s i => visit I nd q (ch i) s) s0) := by
      intro l
      induction l with
      | nil => intro s0 a b; exact ⟨a, b, le_rfl, by simp⟩
      | cons i l ihl =>
        intro s0 a b
        rw [List.foldl_cons]
        obtain ⟨a1, b1, c1, d1⟩ := ih i (hch i).2.2 s0 a b (fun y hy => hM y (mem_items_node.2 ⟨i, hy⟩))
        obtain ⟨a2, b2, c2, d2⟩ := ihl _ a1 b1
        refine ⟨a2, b2, c2.trans c1, fun y hy => ?_⟩
        rw [List.map_cons, List.sum_cons, Multiset.mem_add] at hy
        rcases hy with hy | hy
        · exact c2.trans (d1 y hy)
        · exact d2 y hy
    obtain ⟨a, b, c, e⟩ := hfold ((List.finRange (2 ^ d)).filter fun i => decide (withinDistance I (ch i) q s.2)) s h1 h2
    refine ⟨a, b, c, fun y hy => ?_⟩
    obtain ⟨i, hi⟩ := mem_items_node.1 hy
    by_cases hwi : withinDistance I (ch i) q s.2
    · apply e
      have hmem : i ∈ (List.finRange (2 ^ d)).filter fun i => decide (withinDistance I (ch i) q s.2) :=
        List.mem_filter.2 ⟨List.mem_finRange i, by simpa using hwi⟩
      have : items (ch i) ∈ ((List.finRange (2 ^ d)).filter fun i => decide (withinDistance I (ch i) q s.2)).map fun i => items (ch i) :=
        List.mem_map.2 ⟨i, hmem, rfl⟩
      exact Multiset.mem_of_le (List.single_le_sum (fun x _ => Multiset.zero_le x) _ this) hi
    · exact c.trans (far_of_not_within I hm nrm hnrm (ch i) (hch i).2.2 q s.2 hwi y hi)

end SIT
end RFS
