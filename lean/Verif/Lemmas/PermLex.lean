import Verif.Model.PermLex
import Mathlib.Data.List.Lex
import Mathlib.Data.List.Perm.Basic
import Mathlib.Data.Finset.Card
import Mathlib.Data.Finset.Filter
import Mathlib.Data.List.Permutation
import Mathlib.Data.List.Sort
import Mathlib.Order.Basic

namespace RFS
namespace PermLex

theorem cons_lt_cons' {a b : Nat} {l m : List Nat} : a :: l < b :: m ↔ a < b ∨ a = b ∧ l < m := by
  simpa using List.cons_lt_cons_iff

theorem cons_le_cons' {a b : Nat} {l m : List Nat} : a :: l ≤ b :: m ↔ a < b ∨ a = b ∧ l ≤ m := by
  rw [le_iff_lt_or_eq, cons_lt_cons', le_iff_lt_or_eq]
  constructor
  · rintro ((h | ⟨h1, h2⟩) | h)
    · exact Or.inl h
    · exact Or.inr ⟨h1, Or.inl h2⟩
    · cases h; exact Or.inr ⟨rfl, Or.inr rfl⟩
  · rintro (h | ⟨h1, h2 | h2⟩)
    · exact Or.inl (Or.inl h)
    · exact Or.inl (Or.inr ⟨h1, h2⟩)
    · subst h1 h2; exact Or.inr rfl

theorem asc_min : ∀ {l : List Nat}, l.Pairwise (· ≤ ·) → ∀ {m}, m.Perm l → l ≤ m
  | [], _, m, h => by rw [h.eq_nil]
  | a :: l, hl, m, h => by
    rw [List.pairwise_cons] at hl
    cases m with
    | nil => exact absurd h.symm.eq_nil (by simp)
    | cons b m =>
      rw [cons_le_cons']
      have hb : b ∈ a :: l := h.subset List.mem_cons_self
      have hab : a ≤ b := by
        rcases List.mem_cons.1 hb with rfl | hb
        · exact le_refl _
        · exact hl.1 b hb
      rcases lt_or_eq_of_le hab with hab | rfl
      · exact Or.inl hab
      · exact Or.inr ⟨rfl, asc_min hl.2 ((List.perm_cons _).1 h)⟩

theorem desc_max : ∀ {l : List Nat}, l.Pairwise (· ≥ ·) → ∀ {m}, m.Perm l → m ≤ l
  | [], _, m, h => by rw [h.eq_nil]
  | a :: l, hl, m, h => by
    rw [List.pairwise_cons] at hl
    cases m with
    | nil => exact absurd h.symm.eq_nil (by simp)
    | cons b m =>
      rw [cons_le_cons']
      have hb : b ∈ a :: l := h.subset List.mem_cons_self
      have hab : b ≤ a := by
        rcases List.mem_cons.1 hb with rfl | hb
        · exact le_refl _
        · exact hl.1 b hb
      rcases lt_or_eq_of_le hab with hab | rfl
      · exact Or.inl hab
      · exact Or.inr ⟨rfl, desc_max hl.2 ((List.perm_cons _).1 h)⟩

theorem bump_none {a : Nat} : ∀ {l}, bump a l = none → ∀ x ∈ l, x ≤ a
  | [], _ => by simp
  | x :: l, h => by
    unfold bump at h
    split at h
    · cases h
    · rename_i hx
      have := bump_none (l := l) (by simpa using h)
      intro y hy
      rcases List.mem_cons.1 hy with rfl | hy
      · exact not_lt.1 hx
      · exact this y hy

theorem bump_some {a y : Nat} : ∀ {l r}, l.Pairwise (· ≤ ·) → bump a l = some (y, r) →
    a < y ∧ y ∈ l ∧ (∀ x ∈ l, a < x → y ≤ x) ∧ (y :: r).Perm (a :: l) ∧ r.Pairwise (· ≤ ·)
  | [], r, _, h => by simp [bump] at h
  | x :: l, r, hl, h => by
    rw [List.pairwise_cons] at hl
    unfold bump at h
    split at h
    · rename_i hx
      cases h
      refine ⟨hx, by simp, ?_, List.Perm.swap _ _ _, ?_⟩
      · intro z hz _
        rcases List.mem_cons.1 hz with rfl | hz
        · exact le_refl _
        · exact hl.1 z hz
      · rw [List.pairwise_cons]
        exact ⟨fun z hz => le_of_lt (lt_of_lt_of_le hx (hl.1 z hz)), hl.2⟩
    · rename_i hx
      rw [Option.map_eq_some_iff] at h
      obtain ⟨⟨y', r'⟩, h1, h2⟩ := h
      cases h2
      obtain ⟨g1, g2, g3, g4, g5⟩ := bump_some hl.2 h1
      refine ⟨g1, List.mem_cons_of_mem _ g2, ?_, ?_, ?_⟩
      · intro z hz haz
        rcases List.mem_cons.1 hz with rfl | hz
        · exact absurd haz hx
        · exact g3 z hz haz
      · exact (List.Perm.swap _ _ _).trans ((g4.cons x).trans (List.Perm.swap _ _ _))
      · rw [List.pairwise_cons]
        refine ⟨?_, g5⟩
        intro z hz
        have : z ∈ a :: l := g4.subset (List.mem_cons_of_mem _ hz)
        rcases List.mem_cons.1 this with rfl | hz
        · exact not_lt.1 hx
        · exact hl.1 z hz

theorem nextPerm_none : ∀ {l : List Nat}, nextPerm l = none → l.Pairwise (· ≥ ·)
  | [], _ => List.Pairwise.nil
  | a :: l, h => by
    unfold nextPerm at h
    split at h
    · cases h
    · rename_i h1
      have h2 : bump a l.reverse = none := by simpa using h
      rw [List.pairwise_cons]
      exact ⟨fun x hx => bump_none h2 x (by simpa using hx), nextPerm_none h1⟩

/-- `next_permutation` yields the least larger arrangement. -/
theorem nextPerm_some : ∀ {l l' : List Nat}, nextPerm l = some l' →
    l'.Perm l ∧ l < l' ∧ ∀ m, m.Perm l → l < m → l' ≤ m
  | [], _, h => by simp [nextPerm] at h
  | a :: l, l', h => by
    unfold nextPerm at h
    split at h
    · rename_i l1 h1
      cases h
      obtain ⟨g1, g2, g3⟩ := nextPerm_some h1
      refine ⟨g1.cons a, by rw [cons_lt_cons']; exact Or.inr ⟨rfl, g2⟩, ?_⟩
      intro m hm hlt
      cases m with
      | nil => exact absurd hm.symm.eq_nil (by simp)
      | cons b m =>
        rw [cons_lt_cons'] at hlt
        rw [cons_le_cons']
        rcases hlt with hlt | ⟨rfl, hlt⟩
        · exact Or.inl hlt
        · exact Or.inr ⟨rfl, g3 m ((List.perm_cons _).1 hm) hlt⟩
    · rename_i h1
      have hd := nextPerm_none h1
      rw [Option.map_eq_some_iff] at h
      obtain ⟨⟨y, r⟩, h2, h3⟩ := h
      cases h3
      have hasc : l.reverse.Pairwise (· ≤ ·) := by rw [List.pairwise_reverse]; exact hd
      obtain ⟨g1, g2, g3, g4, g5⟩ := bump_some hasc h2
      have hperm : (y :: r).Perm (a :: l) := g4.trans ((List.reverse_perm l).cons a)
      refine ⟨hperm, by rw [cons_lt_cons']; exact Or.inl g1, ?_⟩
      intro m hm hlt
      cases m with
      | nil => exact absurd hm.symm.eq_nil (by simp)
      | cons b m =>
        rw [cons_lt_cons'] at hlt
        simp only
        rw [cons_le_cons']
        rcases hlt with hlt | ⟨rfl, hlt⟩
        · have hb : b ∈ a :: l := hm.subset List.mem_cons_self
          have hb' : b ∈ l := by
            rcases List.mem_cons.1 hb with rfl | hb
            · exact absurd hlt (lt_irrefl _)
            · exact hb
          have := g3 b (by simpa using hb') hlt
          rcases lt_or_eq_of_le this with h | rfl
          · exact Or.inl h
          · exact Or.inr ⟨rfl, asc_min g5 ((List.perm_cons _).1 (hm.trans hperm.symm))⟩
        · have := desc_max hd ((List.perm_cons _).1 hm)
          exact absurd hlt (not_lt.2 this)

theorem nextPerm_none_max {l m : List Nat} (h : nextPerm l = none) (hm : m.Perm l) : m ≤ l := desc_max (nextPerm_none h) hm

/-! ### Reversing the suffix -/

theorem swapAt_ok (p : List Nat) (x y : Nat) (q r : List Nat) :
    swapAt (p ++ x :: (q ++ y :: r)) p.length (p.length + q.length + 1) = some (p ++ y :: (q ++ x :: r)) := by
  have h1 : (p ++ x :: (q ++ y :: r))[p.length]? = some x := by simp
  have h2 : (p ++ x :: (q ++ y :: r))[p.length + q.length + 1]? = some y := by
    rw [List.getElem?_append_right (by omega)]
    rw [show p.length + q.length + 1 - p.length = q.length + 1 by omega]
    simp
  unfold swapAt
  rw [h1, h2]
  simp only [Option.some.injEq]
  rw [List.set_append_right _ _ (le_refl _), Nat.sub_self, List.set_cons_zero]
  rw [List.set_append_right _ _ (by omega), show p.length + q.length + 1 - p.length = q.length + 1 by omega]
  rw [List.set_cons_succ, List.set_append_right _ _ (le_refl _), Nat.sub_self, List.set_cons_zero]

theorem revLoop_spec : ∀ (k : Nat) (p q r : List Nat), q.length = k →
    revLoop (p ++ (q ++ r)) p.length (p.length + q.length - 1) = some (p ++ (q.reverse ++ r)) := by
  intro k
  induction k using Nat.strong_induction_on with
  | _ k ih =>
    intro p q r hk
    unfold revLoop
    by_cases h : q.length ≤ 1
    · rw [if_neg (by omega)]
      have : q.reverse = q := by
        match q, h with
        | [], _ => rfl
        | [x], _ => rfl
      rw [this]
    · rw [if_pos (by omega)]
      obtain ⟨x, q1, rfl⟩ : ∃ x q1, q = x :: q1 := by
        cases q with
        | nil => simp at h
        | cons x q1 => exact ⟨x, q1, rfl⟩
      have hq1 : q1 ≠ [] := by rintro rfl; simp at h
      obtain ⟨q2, y, rfl⟩ : ∃ q2 y, q1 = q2 ++ [y] := ⟨q1.dropLast, q1.getLast hq1, (List.dropLast_append_getLast hq1).symm⟩
      have e := swapAt_ok p x y q2 r
      have l1 : p ++ (x :: (q2 ++ [y]) ++ r) = p ++ x :: (q2 ++ y :: r) := by simp
      have l2 : p.length + (x :: (q2 ++ [y])).length - 1 = p.length + q2.length + 1 := by simp; omega
      rw [l1, l2, e]
      simp only
      have := ih q2.length (by simp at hk; omega) (p ++ [y]) q2 (x :: r) rfl
      simp only [List.length_append, List.length_cons, List.length_nil, List.append_assoc, List.cons_append, List.nil_append] at this
      rw [show p.length + q2.length + 1 - 1 = p.length + (0 + 1) + q2.length - 1 by omega]
      rw [show p.length + 1 = p.length + (0 + 1) by omega, this]
      simp

/-- What the loop does to the array of a non-empty object. -/
theorem revLoop_suffix (o : List Nat) (nM : Nat) (h0 : o ≠ []) (hM : nM ≤ o.length) :
    revLoop o nM (o.length - 1) = some (o.take nM ++ (o.drop nM).reverse) := by
  have hl : (o.take nM).length = nM := by simp [hM]
  have := revLoop_spec (o.drop nM).length (o.take nM) (o.drop nM) [] rfl
  simp only [List.append_nil, List.take_append_drop] at this
  rw [hl] at this
  rw [← this]
  congr 1
  simp; omega

/-! ### The sequence of outputs -/

/-- Arrangements whose part after the first `nM` entries is in ascending order. -/
def Good (o0 : List Nat) (nM : Nat) (m : List Nat) : Prop := m.Perm o0 ∧ (m.drop nM).Pairwise (· ≤ ·)

theorem append_lt_append' : ∀ {p p' : List Nat} {s s' : List Nat}, p.length = p'.length →
    (p ++ s < p' ++ s' ↔ p < p' ∨ p = p' ∧ s < s')
  | [], [], s, s', _ => by simp
  | [], _ :: _, _, _, h => by simp at h
  | _ :: _, [], _, _, h => by simp at h
  | a :: p, b :: p', s, s', h => by
    simp only [List.cons_append, cons_lt_cons', append_lt_append' (by simpa using h : p.length = p'.length)]
    clear h
    constructor
    · rintro (h | ⟨rfl, h | ⟨rfl, h⟩⟩)
      · exact Or.inl (Or.inl h)
      · exact Or.inl (Or.inr ⟨rfl, h⟩)
      · exact Or.inr ⟨rfl, h⟩
    · rintro ((h | ⟨rfl, h⟩) | ⟨h, h'⟩)
      · exact Or.inl h
      · exact Or.inr ⟨rfl, Or.inl h⟩
      · cases h; exact Or.inr ⟨rfl, Or.inr ⟨rfl, h'⟩⟩

theorem sorted_perm_eq {l m : List Nat} (hl : l.Pairwise (· ≤ ·)) (hm : m.Pairwise (· ≤ ·)) (h : l.Perm m) : l = m :=
  le_antisymm (asc_min hl h.symm) (asc_min hm h)

theorem take_length_eq {m q : List Nat} (h : m.Perm q) (k : Nat) : (m.take k).length = (q.take k).length := by
  simp [h.length_eq]

theorem good_lt_iff {o0 : List Nat} {nM : Nat} {m q : List Nat} (hm : Good o0 nM m) (hq : Good o0 nM q) :
    m < q ↔ m.take nM < q.take nM := by
  have hp := hm.1.trans hq.1.symm
  conv_lhs => rw [← List.take_append_drop nM m, ← List.take_append_drop nM q]
  rw [append_lt_append' (take_length_eq hp nM)]
  constructor
  · rintro (h | ⟨h1, h2⟩)
    · exact h
    · exfalso
      have : (m.drop nM).Perm (q.drop nM) := by
        have h3 := hp
        rw [← List.take_append_drop nM m, ← List.take_append_drop nM q, h1] at h3
        exact (List.perm_append_left_iff _).1 h3
      rw [sorted_perm_eq hm.2 hq.2 this] at h2
      exact lt_irrefl _ h2
  · exact Or.inl

theorem step_some {o0 : List Nat} {nM : Nat} {m m' : List Nat} (hm : Good o0 nM m)
    (h : nextPerm (m.take nM ++ (m.drop nM).reverse) = some m') :
    Good o0 nM m' ∧ m < m' ∧ ∀ q, Good o0 nM q → m < q → m' ≤ q := by
  obtain ⟨g1, g2, g3⟩ := nextPerm_some h
  have hd : (m.take nM ++ (m.drop nM).reverse).Perm m := by
    conv_rhs => rw [← List.take_append_drop nM m]
    exact (List.perm_append_left_iff _).2 (List.reverse_perm _)
  have hpm : m'.Perm m := g1.trans hd
  -- the prefix strictly increases
  have hlt : m.take nM < m'.take nM := by
    rw [← List.take_append_drop nM m', append_lt_append' (take_length_eq hpm.symm nM)] at g2
    rcases g2 with g2 | ⟨e, g2⟩
    · exact g2
    · exfalso
      have hs : (m'.drop nM).Perm (m.drop nM).reverse := by
        have h3 := g1
        rw [← List.take_append_drop nM m', ← e] at h3
        exact (List.perm_append_left_iff _).1 h3
      have hdesc : (m.drop nM).reverse.Pairwise (· ≥ ·) := by rw [List.pairwise_reverse]; exact hm.2
      exact absurd g2 (not_lt.2 (desc_max hdesc hs))
  have hgood : Good o0 nM m' := by
    refine ⟨hpm.trans hm.1, ?_⟩
    set srt := (m'.drop nM).insertionSort (· ≤ ·) with hsrt
    have hp1 : srt.Perm (m'.drop nM) := List.perm_insertionSort _ _
    have hs1 : srt.Pairwise (· ≤ ·) := List.pairwise_insertionSort _ _
    have hp2 : (m'.take nM ++ srt).Perm m' := by
      conv_rhs => rw [← List.take_append_drop nM m']
      exact (List.perm_append_left_iff _).2 hp1
    have h4 := g3 (m'.take nM ++ srt) (hp2.trans g1) (by
      rw [append_lt_append' (take_length_eq hpm.symm nM)]; exact Or.inl hlt)
    have h5 : m'.take nM ++ srt ≤ m' := by
      by_contra hc
      rw [not_le] at hc
      conv_lhs at hc => rw [← List.take_append_drop nM m']
      rw [append_lt_append' rfl] at hc
      rcases hc with hc | ⟨-, hc⟩
      · exact lt_irrefl _ hc
      · exact absurd hc (not_lt.2 (asc_min hs1 hp1.symm))
    have h6 := le_antisymm h4 h5
    have h7 : m'.drop nM = srt := by
      have h8 : m'.take nM ++ m'.drop nM = m'.take nM ++ srt := by rw [List.take_append_drop]; exact h6
      exact List.append_cancel_left h8
    rw [h7]; exact hs1
  refine ⟨hgood, (good_lt_iff hm hgood).2 hlt, ?_⟩
  intro q hq hmq
  apply g3 q (hq.1.trans (hm.1.symm.trans hd.symm))
  rw [good_lt_iff hm hq] at hmq
  rw [← List.take_append_drop nM q, append_lt_append' (take_length_eq (hm.1.trans hq.1.symm) nM)]
  exact Or.inl hmq

theorem step_none {o0 : List Nat} {nM : Nat} {m : List Nat} (hm : Good o0 nM m)
    (h : nextPerm (m.take nM ++ (m.drop nM).reverse) = none) : ∀ q, Good o0 nM q → q ≤ m := by
  intro q hq
  by_contra hc
  rw [not_le, good_lt_iff hm hq] at hc
  have hd : (m.take nM ++ (m.drop nM).reverse).Perm m := by
    conv_rhs => rw [← List.take_append_drop nM m]
    exact (List.perm_append_left_iff _).2 (List.reverse_perm _)
  have h1 := nextPerm_none_max h (hq.1.trans (hm.1.symm.trans hd.symm))
  apply absurd h1
  rw [not_le, ← List.take_append_drop nM q, append_lt_append' (take_length_eq (hm.1.trans hq.1.symm) nM)]
  exact Or.inl hc

theorem call_last (s : St) (h : s.last = true) : ∀ k, call s k = some (List.replicate s.o.length 0, 0)
  | 0 => by simp [call, next, h]
  | k + 1 => by
    unfold call
    have : next s = some (List.replicate s.o.length 0, 0, s) := by simp [next, h]
    rw [this]
    exact call_last s h k

theorem chain (o0 : List Nat) : ∀ (c : Nat) (s : St), (o0.permutations.toFinset.filter (s.o < ·)).card = c →
    s.last = false → s.nM ≤ s.o.length → s.o ≠ [] → Good o0 s.nM s.o →
    ∃ L : List (List Nat), L.Pairwise (· < ·) ∧ (∀ q, q ∈ L ↔ Good o0 s.nM q ∧ s.o ≤ q) ∧
      ∀ k, call s k = if h : k < L.length then some (L[k], (s.nP + k + 1) % uintMod)
        else some (List.replicate s.o.length 0, 0) := by
  intro c
  induction c using Nat.strong_induction_on with
  | _ c ih =>
    intro s hc hlast hM h0 hg
    have hrev := revLoop_suffix s.o s.nM h0 hM
    have hlen0 : s.o.length ≠ 0 := by simpa using h0
    cases hn : nextPerm (s.o.take s.nM ++ (s.o.drop s.nM).reverse) with
    | none =>
      have hnext : next s = some (s.o, (s.nP + 1) % uintMod,
          { s with o := (s.o.take s.nM ++ (s.o.drop s.nM).reverse).reverse, nP := (s.nP + 1) % uintMod, last := true }) := by
        simp [next, hlast, hlen0, hrev, hn]
      refine ⟨[s.o], by simp, ?_, ?_⟩
      · intro q
        rw [List.mem_singleton]
        constructor
        · rintro rfl; exact ⟨hg, le_refl _⟩
        · rintro ⟨h1, h2⟩
          exact le_antisymm (step_none hg hn q h1) h2
      · intro k
        cases k with
        | zero => simp [call, hnext]
        | succ k =>
          unfold call
          rw [hnext]
          simp only
          rw [call_last _ rfl]
          rw [dif_neg (by simp)]
          congr 3
          simp; omega
    | some m' =>
      obtain ⟨g1, g2, g3⟩ := step_some hg hn
      have hnext : next s = some (s.o, (s.nP + 1) % uintMod, { s with o := m', nP := (s.nP + 1) % uintMod }) := by
        simp [next, hlast, hlen0, hrev, hn]
      have hlen : m'.length = s.o.length := (g1.1.trans hg.1.symm).length_eq
      have hcard : (o0.permutations.toFinset.filter (m' < ·)).card < c := by
        rw [← hc]
        apply Finset.card_lt_card
        rw [Finset.ssubset_iff_of_subset]
        · refine ⟨m', ?_, ?_⟩
          · rw [Finset.mem_filter, List.mem_toFinset, List.mem_permutations]
            exact ⟨g1.1, g2⟩
          · rw [Finset.mem_filter]
            exact fun h => lt_irrefl _ h.2
        · intro q hq
          rw [Finset.mem_filter] at hq ⊢
          exact ⟨hq.1, lt_trans g2 hq.2⟩
      obtain ⟨L, h1, h2, h3⟩ := ih _ hcard { s with o := m', nP := (s.nP + 1) % uintMod } rfl hlast
        (by simp only [hlen]; exact hM) (by rintro rfl; exact hlen0 hlen.symm) g1
      simp only at h2 h3
      refine ⟨s.o :: L, ?_, ?_, ?_⟩
      · rw [List.pairwise_cons]
        refine ⟨?_, h1⟩
        intro q hq
        exact lt_of_lt_of_le g2 ((h2 q).1 hq).2
      · intro q
        rw [List.mem_cons, h2]
        constructor
        · rintro (rfl | ⟨h4, h5⟩)
          · exact ⟨hg, le_refl _⟩
          · exact ⟨h4, le_of_lt (lt_of_lt_of_le g2 h5)⟩
        · rintro ⟨h4, h5⟩
          rcases lt_or_eq_of_le h5 with h6 | h6
          · exact Or.inr ⟨h4, g3 q h4 h6⟩
          · exact Or.inl h6.symm
      · intro k
        cases k with
        | zero => simp [call, hnext]
        | succ k =>
          unfold call
          rw [hnext]
          simp only
          rw [h3]
          by_cases hk : k < L.length
          · rw [dif_pos hk, dif_pos (by simp; exact hk)]
            simp only [List.getElem_cons_succ]
            congr 2
            unfold uintMod
            omega
          · rw [dif_neg hk, dif_neg (by simp; omega), hlen]

end PermLex
end RFS
