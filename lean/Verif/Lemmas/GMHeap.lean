import Verif.Model.GMHeap
import Verif.Lemmas.GaussianMixture

set_option linter.unusedSectionVars false

namespace RFS
namespace GMHeap
open GM

variable {K : Type*} [Field K] [LinearOrder K] [IsStrictOrderedRing K] {d : Nat}

/-- The pointers held by a container. -/
def ptrs (g : List (Ent K)) : List Nat := g.filterMap Ent.ptr

/-- Addresses not given out yet are not live. -/
def HeapOK (h : Heap K d) : Prop := ∀ p, h.next ≤ p → h.cells p = none

/-- A container owns its pointers: no duplicates, all live. -/
structure Own (h : Heap K d) (g : List (Ent K)) : Prop where
  nodup : (ptrs g).Nodup
  live : ∀ p ∈ ptrs g, (h.cells p).isSome

/-- Effect of an operation on one container: only owned and fresh memory is touched, nothing leaks. -/
structure Good (h : Heap K d) (g : List (Ent K)) (h' : Heap K d) (g' : List (Ent K)) : Prop where
  hok : HeapOK h'
  own : Own h' g'
  nxt : h.next ≤ h'.next
  sub : ∀ p ∈ ptrs g', p ∈ ptrs g ∨ h.next ≤ p
  frame : ∀ p, p < h.next → p ∉ ptrs g → h'.cells p = h.cells p
  exact : ∀ p, (h'.cells p).isSome → p ∈ ptrs g' ∨ (p ∉ ptrs g ∧ p < h.next ∧ (h.cells p).isSome)

theorem HeapOK.lt {h : Heap K d} (hk : HeapOK h) {p : Nat} (hp : (h.cells p).isSome) : p < h.next := by
  by_contra hcon
  rw [hk p (not_lt.1 hcon)] at hp
  cases hp

theorem Good.refl {h : Heap K d} {g : List (Ent K)} (hk : HeapOK h) (ho : Own h g) : Good h g h g where
  hok := hk
  own := ho
  nxt := le_rfl
  sub := fun _ hp => Or.inl hp
  frame := fun _ _ _ => rfl
  exact := fun p hp => by
    by_cases h : p ∈ ptrs g
    · exact Or.inl h
    · exact Or.inr ⟨h, hk.lt hp, hp⟩

theorem Good.trans {h h1 h2 : Heap K d} {g g1 g2 : List (Ent K)} (a : Good h g h1 g1) (b : Good h1 g1 h2 g2) : Good h g h2 g2 where
  hok := b.hok
  own := b.own
  nxt := a.nxt.trans b.nxt
  sub := fun p hp => by
    rcases b.sub p hp with h | h
    · exact a.sub p h
    · exact Or.inr (a.nxt.trans h)
  frame := fun p hp hn => by
    rw [b.frame p (lt_of_lt_of_le hp a.nxt), a.frame p hp hn]
    intro hin
    rcases a.sub p hin with h | h
    · exact hn h
    · omega
  exact := fun p hp => by
    rcases b.exact p hp with h | ⟨h1, h2, h3⟩
    · exact Or.inl h
    · rcases a.exact p h3 with h | h
      · exact absurd h h1
      · exact Or.inr h

/-- Same pointers (weights changed, permuted): nothing happens to the memory. -/
theorem Good.of_perm {h : Heap K d} {g g' : List (Ent K)} (hk : HeapOK h) (ho : Own h g) (hp : (ptrs g').Perm (ptrs g)) :
    Good h g h g' where
  hok := hk
  own := ⟨hp.nodup_iff.2 ho.nodup, fun p hp' => ho.live p (hp.mem_iff.1 hp')⟩
  nxt := le_rfl
  sub := fun _ hp' => Or.inl (hp.mem_iff.1 hp')
  frame := fun _ _ _ => rfl
  exact := fun p hp' => by
    by_cases h : p ∈ ptrs g
    · exact Or.inl (hp.mem_iff.2 h)
    · exact Or.inr ⟨h, hk.lt hp', hp'⟩

theorem ptrs_map {g : List (Ent K)} {f : Ent K → Ent K} (hf : ∀ e, (f e).ptr = e.ptr) : ptrs (g.map f) = ptrs g := by
  unfold ptrs
  rw [List.filterMap_map]
  congr 1
  funext e
  exact hf e

theorem ptrs_mapIdx (g : List (Ent K)) (f : Nat → Ent K → Ent K) (hf : ∀ i e, (f i e).ptr = e.ptr) : ptrs (g.mapIdx f) = ptrs g := by
  induction g generalizing f with
  | nil => rfl
  | cons a g ih =>
    have := ih (fun i => f (i + 1)) (fun i e => hf _ e)
    unfold ptrs at this ⊢
    rw [List.mapIdx_cons, List.filterMap_cons, List.filterMap_cons, hf, this]

theorem mem_ptrs {g : List (Ent K)} {i : Nat} {e : Ent K} {p : Nat} (h : g[i]? = some e) (hp : e.ptr = some p) : p ∈ ptrs g :=
  List.mem_filterMap.2 ⟨e, List.mem_of_getElem? h, hp⟩

theorem ptrs_set_same : ∀ (g : List (Ent K)) (i : Nat) (e e' : Ent K), g[i]? = some e → e'.ptr = e.ptr → ptrs (g.set i e') = ptrs g
  | [], _, _, _, h, _ => by simp at h
  | a :: g, 0, e, e', h, hp => by
    simp only [List.getElem?_cons_zero, Option.some.injEq] at h
    subst h
    simp [ptrs, List.filterMap_cons, hp]
  | a :: g, i + 1, e, e', h, hp => by
    simp only [List.getElem?_cons_succ] at h
    have := ptrs_set_same g i e e' h hp
    unfold ptrs at this ⊢
    rw [List.set_cons_succ, List.filterMap_cons, List.filterMap_cons, this]

theorem ptrs_set_null : ∀ (g : List (Ent K)) (i : Nat) (e e' : Ent K) (p : Nat), g[i]? = some e → e.ptr = some p → e'.ptr = none →
    (ptrs g).Perm (p :: ptrs (g.set i e'))
  | [], _, _, _, _, h, _, _ => by simp at h
  | a :: g, 0, e, e', p, h, hp, hn => by
    simp only [List.getElem?_cons_zero, Option.some.injEq] at h
    subst h
    simp [ptrs, List.filterMap_cons, hp, hn]
  | a :: g, i + 1, e, e', p, h, hp, hn => by
    simp only [List.getElem?_cons_succ] at h
    have := ptrs_set_null g i e e' p h hp hn
    unfold ptrs at this ⊢
    rw [List.set_cons_succ, List.filterMap_cons, List.filterMap_cons]
    cases a.ptr with
    | none => exact this
    | some q => exact (this.cons q).trans (List.Perm.swap p q _)

theorem ptr_inj : ∀ (g : List (Ent K)) (i j : Nat) (e e' : Ent K) (p : Nat), (ptrs g).Nodup → g[i]? = some e → g[j]? = some e' →
    e.ptr = some p → e'.ptr = some p → i = j
  | [], _, _, _, _, _, _, h, _, _, _ => by simp at h
  | a :: g, 0, 0, _, _, _, _, _, _, _, _ => rfl
  | a :: g, 0, j + 1, e, e', p, hn, h1, h2, h3, h4 => by
    simp only [List.getElem?_cons_zero, Option.some.injEq, List.getElem?_cons_succ] at h1 h2
    subst h1
    unfold ptrs at hn
    rw [List.filterMap_cons, h3] at hn
    exact absurd (mem_ptrs h2 h4) (List.nodup_cons.1 hn).1
  | a :: g, i + 1, 0, e, e', p, hn, h1, h2, h3, h4 => by
    simp only [List.getElem?_cons_zero, Option.some.injEq, List.getElem?_cons_succ] at h1 h2
    subst h2
    unfold ptrs at hn
    rw [List.filterMap_cons, h4] at hn
    exact absurd (mem_ptrs h1 h3) (List.nodup_cons.1 hn).1
  | a :: g, i + 1, j + 1, e, e', p, hn, h1, h2, h3, h4 => by
    simp only [List.getElem?_cons_succ] at h1 h2
    unfold ptrs at hn
    rw [List.filterMap_cons] at hn
    have hn' : (ptrs g).Nodup := by
      cases ha : a.ptr with
      | none => rw [ha] at hn; exact hn
      | some q => rw [ha] at hn; exact (List.nodup_cons.1 hn).2
    rw [ptr_inj g i j e e' p hn' h1 h2 h3 h4]

/-- The value of an entry. -/
def ent (h : Heap K d) (e : Ent K) : Gauss K d := ⟨e.ptr.bind h.cells, e.w, e.wp⟩

theorem view_g (h : Heap K d) (o : Mix K) : (view h o).g = o.g.map (ent h) := rfl

theorem ent_lm_some {h : Heap K d} {g : List (Ent K)} (ho : Own h g) {i : Nat} {e : Ent K} (hi : g[i]? = some e) {p : Nat}
    (hp : e.ptr = some p) : ∃ v, h.cells p = some v ∧ (ent h e).lm = some v := by
  obtain ⟨v, hv⟩ := Option.isSome_iff_exists.1 (ho.live p (mem_ptrs hi hp))
  exact ⟨v, hv, by simp [ent, hp, hv]⟩

theorem ent_congr {h h' : Heap K d} {g : List (Ent K)} (hf : ∀ p ∈ ptrs g, h'.cells p = h.cells p) : g.map (ent h') = g.map (ent h) := by
  apply List.map_congr_left
  intro e he
  unfold ent
  cases hp : e.ptr with
  | none => rfl
  | some p => simp only [Option.bind_some]; rw [hf p (List.mem_filterMap.2 ⟨e, he, hp⟩)]

/-- Updating the cell of entry `i` and that entry. -/
theorem map_ent_set {h : Heap K d} {g : List (Ent K)} (ho : Own h g) {i : Nat} {e e' : Ent K} (hi : g[i]? = some e) {p : Nat}
    (hp : e.ptr = some p) (h' : Heap K d) (hf : ∀ q, q ≠ p → h'.cells q = h.cells q) :
    (g.set i e').map (ent h') = (g.map (ent h)).set i (ent h' e') := by
  apply List.ext_getElem?
  intro j
  rw [List.getElem?_map]
  by_cases hij : i = j
  · subst hij
    have hl := (List.getElem?_eq_some_iff.1 hi).1
    rw [List.getElem?_set_self hl, List.getElem?_set_self (by simpa using hl)]
    rfl
  · rw [List.getElem?_set_ne hij, List.getElem?_set_ne hij, List.getElem?_map]
    cases hj : g[j]? with
    | none => rfl
    | some ej =>
      simp only [Option.map_some, Option.some.injEq]
      unfold ent
      cases hq : ej.ptr with
      | none => rfl
      | some q =>
        simp only [Option.bind_some]
        rw [hf q]
        intro hqp
        subst hqp
        exact hij (ptr_inj g i j e ej q ho.nodup hi hj hp hq)

/-- Simulation between an operation on the heap and one on values. -/
def Sim {α : Type*} (h : Heap K d) (o : Mix K) (r : Option (α × Heap K d × Mix K)) (v : Option (α × GMix K d)) : Prop :=
  (r = none ∧ v = none) ∨ ∃ a h' o', r = some (a, h', o') ∧ v = some (a, view h' o') ∧ Good h o.g h' o'.g

/-- The same without a returned value. -/
def Sim0 (h : Heap K d) (o : Mix K) (r : Option (Heap K d × Mix K)) (v : Option (GMix K d)) : Prop :=
  (r = none ∧ v = none) ∨ ∃ h' o', r = some (h', o') ∧ v = some (view h' o') ∧ Good h o.g h' o'.g

theorem free_good {h : Heap K d} {g : List (Ent K)} (hk : HeapOK h) (ho : Own h g) {i : Nat} {e : Ent K} (hi : g[i]? = some e)
    {p : Nat} (hp : e.ptr = some p) (e' : Ent K) (he' : e'.ptr = none) :
    Good h g ⟨Function.update h.cells p none, h.next⟩ (g.set i e') := by
  have hperm := ptrs_set_null g i e e' p hi hp he'
  have hnd := hperm.nodup_iff.1 ho.nodup
  rw [List.nodup_cons] at hnd
  refine ⟨?_, ⟨hnd.2, ?_⟩, le_rfl, ?_, ?_, ?_⟩
  · intro q hq
    simp only [Function.update_apply]
    split
    · rfl
    · exact hk q hq
  · intro q hq
    have hne : q ≠ p := fun h => hnd.1 (h ▸ hq)
    simp only [Function.update_apply, hne, if_false]
    exact ho.live q (hperm.mem_iff.2 (List.mem_cons_of_mem _ hq))
  · intro q hq
    exact Or.inl (hperm.mem_iff.2 (List.mem_cons_of_mem _ hq))
  · intro q hq hqn
    have hne : q ≠ p := fun h => hqn (h ▸ mem_ptrs hi hp)
    simp [Function.update_apply, hne]
  · intro q hq
    simp only [Function.update_apply] at hq
    by_cases hqp : q = p
    · rw [if_pos hqp] at hq; cases hq
    · rw [if_neg hqp] at hq
      by_cases hin : q ∈ ptrs g
      · left
        rcases List.mem_cons.1 (hperm.mem_iff.1 hin) with h | h
        · exact absurd h hqp
        · exact h
      · exact Or.inr ⟨hin, hk.lt hq, hq⟩

theorem write_good {h : Heap K d} {g : List (Ent K)} (hk : HeapOK h) (ho : Own h g) {i : Nat} {e : Ent K} (hi : g[i]? = some e)
    {p : Nat} (hp : e.ptr = some p) (e' : Ent K) (he' : e'.ptr = some p) (v : Lm K d) :
    Good h g ⟨Function.update h.cells p (some v), h.next⟩ (g.set i e') := by
  have hsame := ptrs_set_same g i e e' hi (by rw [he', hp])
  have hlt := hk.lt (ho.live p (mem_ptrs hi hp))
  refine ⟨?_, ⟨by rw [hsame]; exact ho.nodup, ?_⟩, le_rfl, ?_, ?_, ?_⟩
  · intro q hq
    have hne : q ≠ p := by simp only at hq; omega
    simp only [Function.update_apply, hne, if_false]
    exact hk q hq
  · intro q hq
    rw [hsame] at hq
    simp only [Function.update_apply]
    split
    · rfl
    · exact ho.live q hq
  · intro q hq
    rw [hsame] at hq
    exact Or.inl hq
  · intro q hq hqn
    have hne : q ≠ p := fun h => hqn (h ▸ mem_ptrs hi hp)
    simp [Function.update_apply, hne]
  · intro q hq
    rw [hsame]
    by_cases hin : q ∈ ptrs g
    · exact Or.inl hin
    · have hne : q ≠ p := fun h => hin (h ▸ mem_ptrs hi hp)
      simp only [Function.update_apply, hne, if_false] at hq
      exact Or.inr ⟨hin, hk.lt hq, hq⟩

theorem alloc_good {h : Heap K d} {g : List (Ent K)} (hk : HeapOK h) (ho : Own h g) (v : Lm K d) (w : K) :
    Good h g (h.alloc v) (g ++ [⟨some h.next, w, 0⟩]) := by
  have happ : ptrs (g ++ [⟨some h.next, w, 0⟩]) = ptrs g ++ [h.next] := by simp [ptrs, List.filterMap_append]
  have hlt : ∀ p ∈ ptrs g, p < h.next := fun p hp => hk.lt (ho.live p hp)
  refine ⟨?_, ⟨?_, ?_⟩, by simp [Heap.alloc], ?_, ?_, ?_⟩
  · intro q hq
    simp only [Heap.alloc] at hq ⊢
    have hne : q ≠ h.next := by omega
    simp only [Function.update_apply, hne, if_false]
    exact hk q (by omega)
  · rw [happ, List.nodup_append]
    refine ⟨ho.nodup, by simp, ?_⟩
    intro a ha b hb
    rw [List.mem_singleton] at hb
    have := hlt a ha
    omega
  · intro q hq
    rw [happ, List.mem_append, List.mem_singleton] at hq
    simp only [Heap.alloc, Function.update_apply]
    split
    · rfl
    · rename_i hne
      rcases hq with h1 | h1
      · exact ho.live q h1
      · exact absurd h1 hne
  · intro q hq
    rw [happ, List.mem_append, List.mem_singleton] at hq
    rcases hq with h1 | h1
    · exact Or.inl h1
    · exact Or.inr h1.ge
  · intro q hq _
    have hne : q ≠ h.next := by omega
    simp [Heap.alloc, Function.update_apply, hne]
  · intro q hq
    rw [happ, List.mem_append, List.mem_singleton]
    by_cases hne : q = h.next
    · exact Or.inl (Or.inr hne)
    · simp only [Heap.alloc, Function.update_apply, hne, if_false] at hq
      by_cases hin : q ∈ ptrs g
      · exact Or.inl (Or.inl hin)
      · exact Or.inr ⟨hin, hk.lt hq, hq⟩

theorem removeGaussian_sim {h : Heap K d} {o : Mix K} (hk : HeapOK h) (ho : Own h o.g) (i : Nat) :
    Sim0 h o (removeGaussian h o i) (GM.removeGaussian (view h o) i) := by
  unfold removeGaussian GM.removeGaussian
  rw [view_g, List.getElem?_map]
  cases hi : o.g[i]? with
  | none => exact Or.inl ⟨rfl, rfl⟩
  | some e =>
    cases hp : e.ptr with
    | none =>
      refine Or.inr ⟨h, { o with sorted := false }, by simp [hp], ?_, Good.refl hk ho⟩
      simp [ent, hp, view]
    | some p =>
      obtain ⟨v, hv, hl⟩ := ent_lm_some ho hi hp
      refine Or.inr ⟨⟨Function.update h.cells p none, h.next⟩, ⟨o.n - 1, o.g.set i ⟨none, 0, 0⟩, false⟩, ?_, ?_, ?_⟩
      · simp [Heap.free, hv, hp]
      · simp only [Option.map_some, hl]
        have := map_ent_set (e' := ⟨none, 0, 0⟩) ho hi hp ⟨Function.update h.cells p none, h.next⟩
          (fun q hq => by simp [Function.update_apply, hq])
        unfold view
        simp only
        congr 2
        exact this.symm
      · exact free_good hk ho hi hp _ rfl

theorem merge2_sim {maha : Lm K d → Lm K d → K} {t f : K} {h : Heap K d} {o : Mix K} (hk : HeapOK h) (ho : Own h o.g) (i j : Nat) :
    Sim h o (merge2 maha t f h o i j) (GM.merge2 maha t f (view h o) i j) := by
  unfold merge2 GM.merge2
  rw [view_g, List.getElem?_map, List.getElem?_map]
  cases hi : o.g[i]? with
  | none => exact Or.inl ⟨by simp, by simp⟩
  | some e1 =>
    cases hj : o.g[j]? with
    | none => exact Or.inl ⟨by simp, by simp⟩
    | some e2 =>
      simp only [Option.map_some]
      cases hp1 : e1.ptr with
      | none =>
        refine Or.inr ⟨false, h, { o with sorted := false }, by simp, ?_, Good.refl hk ho⟩
        simp [ent, hp1, view]
      | some p1 =>
        obtain ⟨l1, hv1, hl1⟩ := ent_lm_some ho hi hp1
        cases hp2 : e2.ptr with
        | none =>
          refine Or.inr ⟨false, h, { o with sorted := false }, by simp, ?_, Good.refl hk ho⟩
          simp [ent, hp1, hp2, view]
        | some p2 =>
          obtain ⟨l2, hv2, hl2⟩ := ent_lm_some ho hj hp2
          simp only [hv1, hv2, hl1, hl2]
          have hw1 : (ent h e1).w = e1.w := rfl
          have hw2 : (ent h e2).w = e2.w := rfl
          rw [hw1, hw2]
          by_cases c1 : t * t < maha l1 l2 ∧ t * t < maha l2 l1
          · rw [if_pos c1, if_pos c1]
            exact Or.inr ⟨false, h, { o with sorted := false }, rfl, rfl, Good.refl hk ho⟩
          · rw [if_neg c1, if_neg c1]
            by_cases c2 : e1.w + e2.w = 0
            · rw [if_pos c2, if_pos c2]
              exact Or.inr ⟨false, h, { o with sorted := false }, rfl, rfl, Good.refl hk ho⟩
            · rw [if_neg c2, if_neg c2]
              simp only [Heap.write, hv1]
              have g1 := write_good hk ho hi hp1 ⟨some p1, e1.w + e2.w, 0⟩ rfl (mergeLm e1.w e2.w f l1 l2)
              have hs := removeGaussian_sim (o := { o with g := o.g.set i ⟨some p1, e1.w + e2.w, 0⟩ }) g1.hok g1.own j
              have hview : view ⟨Function.update h.cells p1 (some (mergeLm e1.w e2.w f l1 l2)), h.next⟩
                  { o with g := o.g.set i ⟨some p1, e1.w + e2.w, 0⟩ } =
                  { view h o with g := (o.g.map (ent h)).set i ⟨some (mergeLm e1.w e2.w f l1 l2), e1.w + e2.w, 0⟩ } := by
                have := map_ent_set (e' := ⟨some p1, e1.w + e2.w, 0⟩) ho hi hp1
                  ⟨Function.update h.cells p1 (some (mergeLm e1.w e2.w f l1 l2)), h.next⟩
                  (fun q hq => by simp [Function.update_apply, hq])
                unfold view
                simp only
                congr 1
                refine this.trans ?_
                simp [ent]
              rw [hview] at hs
              rcases hs with ⟨r1, r2⟩ | ⟨h', o', r1, r2, r3⟩
              · left
                rw [r1]
                refine ⟨rfl, ?_⟩
                refine (congrArg (Option.map fun m' => (true, m')) r2)
              · right
                rw [r1]
                refine ⟨true, h', o', rfl, ?_, g1.trans r3⟩
                exact congrArg (Option.map fun m' => (true, m')) r2

theorem mergeInner_sim {maha : Lm K d → Lm K d → K} {t f : K} (i : Nat) : ∀ (js : List Nat) (k : Nat) {h : Heap K d} {o : Mix K},
    HeapOK h → Own h o.g →
    Sim h o (mergeInner maha t f i js (k, h, o)) (GM.mergeInner maha t f i js (k, view h o))
  | [], k, h, o, hk, ho => Or.inr ⟨k, h, o, rfl, rfl, Good.refl hk ho⟩
  | j :: js, k, h, o, hk, ho => by
    unfold mergeInner GM.mergeInner
    rcases merge2_sim (maha := maha) (t := t) (f := f) hk ho i j with ⟨r1, r2⟩ | ⟨b, h1, o1, r1, r2, r3⟩
    · simp only [r1, r2]; exact Or.inl ⟨rfl, rfl⟩
    · simp only [r1, r2]
      rcases mergeInner_sim i js (if b then k + 1 else k) r3.hok r3.own with ⟨q1, q2⟩ | ⟨a, h2, o2, q1, q2, q3⟩
      · exact Or.inl ⟨q1, q2⟩
      · exact Or.inr ⟨a, h2, o2, q1, q2, r3.trans q3⟩

theorem mergeOuter_sim {maha : Lm K d → Lm K d → K} {t f : K} (N : Nat) : ∀ (is : List Nat) (k : Nat) {h : Heap K d} {o : Mix K},
    HeapOK h → Own h o.g →
    Sim h o (mergeOuter maha t f N is (k, h, o)) (GM.mergeOuter maha t f N is (k, view h o))
  | [], k, h, o, hk, ho => Or.inr ⟨k, h, o, rfl, rfl, Good.refl hk ho⟩
  | i :: is, k, h, o, hk, ho => by
    unfold mergeOuter GM.mergeOuter
    simp only [view_g, List.getElem?_map]
    cases hi : o.g[i]? with
    | none => exact Or.inl ⟨rfl, rfl⟩
    | some e =>
      simp only [Option.map_some]
      cases hp : e.ptr with
      | none =>
        have : (ent h e).lm = none := by simp [ent, hp]
        simp only [this]
        exact mergeOuter_sim N is k hk ho
      | some p =>
        obtain ⟨v, hv, hl⟩ := ent_lm_some ho hi hp
        simp only [hl]
        rcases mergeInner_sim (maha := maha) (t := t) (f := f) i ((List.range N).drop (i + 1)) k hk ho with
          ⟨r1, r2⟩ | ⟨b, h1, o1, r1, r2, r3⟩
        · simp only [r1, r2]; exact Or.inl ⟨rfl, rfl⟩
        · simp only [r1, r2]
          rcases mergeOuter_sim N is b r3.hok r3.own with ⟨q1, q2⟩ | ⟨a, h2, o2, q1, q2, q3⟩
          · exact Or.inl ⟨q1, q2⟩
          · exact Or.inr ⟨a, h2, o2, q1, q2, r3.trans q3⟩

theorem merge_sim {maha : Lm K d → Lm K d → K} {t f : K} {h : Heap K d} {o : Mix K} (hk : HeapOK h) (ho : Own h o.g) :
    Sim h o (merge maha t f h o) (GM.merge maha t f (view h o)) := by
  have := mergeOuter_sim (maha := maha) (t := t) (f := f) o.g.length (List.range o.g.length) 0 (o := { o with sorted := false }) hk ho
  unfold merge GM.merge
  have hl : (view h o).g.length = o.g.length := by simp [view]
  rw [hl]
  exact this

theorem removeFrom_sim : ∀ (is : List Nat) {h : Heap K d} {o : Mix K}, HeapOK h → Own h o.g →
    Sim0 h o (removeFrom is (h, o)) (GM.removeFrom (view h o) is)
  | [], h, o, hk, ho => Or.inr ⟨h, o, rfl, rfl, Good.refl hk ho⟩
  | i :: is, h, o, hk, ho => by
    unfold removeFrom GM.removeFrom
    rcases removeGaussian_sim hk ho i with ⟨r1, r2⟩ | ⟨h1, o1, r1, r2, r3⟩
    · simp only [r1, r2]; exact Or.inl ⟨rfl, rfl⟩
    · simp only [r1, r2]
      rcases removeFrom_sim is r3.hok r3.own with ⟨q1, q2⟩ | ⟨h2, o2, q1, q2, q3⟩
      · exact Or.inl ⟨q1, q2⟩
      · exact Or.inr ⟨h2, o2, q1, q2, r3.trans q3⟩

/-- A value sort that agrees with a sort of the entries on one list. -/
noncomputable def liftSort (srt : List (Ent K) → List (Ent K)) (h : Heap K d) (g : List (Ent K)) (l : List (Gauss K d)) :
    List (Gauss K d) :=
  open Classical in
  if l = g.map (ent h) then (srt g).map (ent h) else l.insertionSort fun a b => b.w ≤ a.w

theorem liftSort_isSort {srt : List (Ent K) → List (Ent K)} (hs : IsSort srt) (h : Heap K d) (g : List (Ent K)) :
    GM.IsSort (liftSort srt h g) := by
  intro l
  unfold liftSort
  split
  · rename_i hl
    subst hl
    refine ⟨(hs g).1.map _, ?_⟩
    rw [List.pairwise_map]
    exact (hs g).2
  · have ht : Std.Total (α := Gauss K d) fun a b => b.w ≤ a.w := ⟨fun a b => le_total _ _⟩
    have htr : IsTrans (Gauss K d) fun a b => b.w ≤ a.w := ⟨fun a b c h1 h2 => le_trans h2 h1⟩
    exact ⟨List.perm_insertionSort _ l, List.pairwise_insertionSort _ l⟩

theorem sort_sim {srt : List (Ent K) → List (Ent K)} (hs : IsSort srt) {h : Heap K d} {o : Mix K} (hk : HeapOK h) (ho : Own h o.g) :
    (sortByWeight srt h o).1 = h ∧ view h (sortByWeight srt h o).2 = GM.sortByWeight (liftSort srt h o.g) (view h o) ∧
      Good h o.g h (sortByWeight srt h o).2.g := by
  refine ⟨rfl, ?_, ?_⟩
  · unfold sortByWeight GM.sortByWeight
    have : (view h o).sorted = o.sorted := rfl
    rw [this]
    simp only
    split
    · rfl
    · have hg : liftSort srt h o.g (view h o).g = (srt o.g).map (ent h) := by
        unfold liftSort
        rw [if_pos (view_g h o)]
      rw [hg]
      rfl
  · unfold sortByWeight
    simp only
    split
    · exact Good.refl hk ho
    · exact Good.of_perm hk ho ((hs o.g).1.filterMap _)

theorem view_length (h : Heap K d) (o : Mix K) : (view h o).g.length = o.g.length := by simp [view]

theorem view_w (h : Heap K d) (o : Mix K) : (view h o).g.map Gauss.w = o.g.map Ent.w := by
  simp [view, Function.comp_def]

theorem removeGaussian_null {h h' : Heap K d} {o o' : Mix K} {i : Nat} (e : removeGaussian h o i = some (h', o')) :
    o'.g.length = o.g.length ∧ (∀ x, o'.g[i]? = some x → x.ptr = none) ∧
      (∀ (j : Nat) (x : Ent K), o.g[j]? = some x → x.ptr = none → ∃ x', o'.g[j]? = some x' ∧ x'.ptr = none) := by
  unfold removeGaussian at e
  cases hi : o.g[i]? with
  | none => rw [hi] at e; cases e
  | some e0 =>
    rw [hi] at e
    simp only at e
    cases hp : e0.ptr with
    | none =>
      rw [hp] at e; cases e
      exact ⟨rfl, fun x hx => by simp only at hx; rw [hi] at hx; cases hx; exact hp, fun j x h1 h2 => ⟨x, h1, h2⟩⟩
    | some p =>
      rw [hp] at e
      simp only at e
      cases hf : h.free p with
      | none => rw [hf] at e; cases e
      | some h1 =>
        rw [hf] at e; cases e
        have hl := (List.getElem?_eq_some_iff.1 hi).1
        refine ⟨by simp, ?_, ?_⟩
        · intro x hx
          simp only at hx
          rw [List.getElem?_set_self hl] at hx
          cases hx; rfl
        · intro j x hj hx
          simp only
          by_cases hij : i = j
          · subst hij; exact ⟨⟨none, 0, 0⟩, List.getElem?_set_self hl, rfl⟩
          · exact ⟨x, by rw [List.getElem?_set_ne hij]; exact hj, hx⟩

theorem removeFrom_null : ∀ (is : List Nat) {s s' : Heap K d × Mix K}, removeFrom is s = some s' →
    s'.2.g.length = s.2.g.length ∧ (∀ i ∈ is, ∀ x, s'.2.g[i]? = some x → x.ptr = none) ∧
      (∀ (j : Nat) (x : Ent K), s.2.g[j]? = some x → x.ptr = none → ∃ x', s'.2.g[j]? = some x' ∧ x'.ptr = none)
  | [], s, s', e => by
    cases e
    exact ⟨rfl, by simp, fun j x h1 h2 => ⟨x, h1, h2⟩⟩
  | i :: is, s, s', e => by
    unfold removeFrom at e
    cases hr : removeGaussian s.1 s.2 i with
    | none => rw [hr] at e; cases e
    | some s1 =>
      rw [hr] at e
      obtain ⟨a1, a2, a3⟩ := removeGaussian_null (h' := s1.1) (o' := s1.2) hr
      obtain ⟨b1, b2, b3⟩ := removeFrom_null is e
      refine ⟨by omega, ?_, ?_⟩
      · intro k hk x hx
        rcases List.mem_cons.1 hk with rfl | hk
        · have hl : k < s1.2.g.length := by
            have := (List.getElem?_eq_some_iff.1 hx).1; omega
          obtain ⟨x', c1, c2⟩ := b3 k _ (List.getElem?_eq_getElem hl) (a2 _ (List.getElem?_eq_getElem hl))
          rw [c1] at hx; cases hx; exact c2
        · exact b2 k hk x hx
      · intro j x hj hx
        obtain ⟨x', c1, c2⟩ := a3 j x hj hx
        exact b3 j x' c1 c2

theorem take_ptrs {g : List (Ent K)} {k : Nat} (hn : ∀ (i : Nat) (x : Ent K), k ≤ i → g[i]? = some x → x.ptr = none) : ptrs (g.take k) = ptrs g := by
  conv_rhs => rw [← List.take_append_drop k g]
  unfold ptrs
  rw [List.filterMap_append]
  have : (g.drop k).filterMap Ent.ptr = [] := by
    rw [List.filterMap_eq_nil_iff]
    intro x hx
    obtain ⟨j, hj, rfl⟩ := List.getElem_of_mem hx
    rw [List.length_drop] at hj
    rw [List.getElem_drop]
    exact hn (k + j) _ (by omega) (List.getElem?_eq_getElem (by omega))
  rw [this, List.append_nil]

theorem scanUp_le {ws : List K} {t : K} : ∀ (fuel idx : Nat) (w : K) (r : Nat), idx < ws.length → scanUp ws t fuel idx w = some r → r ≤ ws.length
  | 0, _, _, _, _, h => by cases h
  | fuel + 1, idx, w, r, hi, h => by
    unfold scanUp at h
    split at h
    · split at h
      · cases h; omega
      · rename_i w' hw
        exact scanUp_le fuel (idx + 1) w' r (List.getElem?_eq_some_iff.1 hw).1 h
    · cases h; omega

theorem prune_sim {srt : List (Ent K) → List (Ent K)} (hs : IsSort srt) (t : K) {h : Heap K d} {o : Mix K} (hk : HeapOK h)
    (ho : Own h o.g) : Sim h o (prune srt t h o) (GM.prune (liftSort srt h o.g) t (view h o)) := by
  unfold prune GM.prune
  simp only
  rw [view_length]
  by_cases h0 : o.g.length < 1
  · rw [if_pos h0, if_pos h0]
    exact Or.inr ⟨0, h, { o with sorted := false }, rfl, rfl, Good.refl hk ho⟩
  · rw [if_neg h0, if_neg h0]
    obtain ⟨-, s2, s3⟩ := sort_sim hs (o := { o with sorted := false }) hk ho
    have s2' : view h (sortByWeight srt h { o with sorted := false }).2 =
        GM.sortByWeight (liftSort srt h o.g) { view h o with sorted := false } := s2
    have s2'' : GM.sortByWeight (liftSort srt h o.g) { n := (view h o).n, g := (view h o).g, sorted := false } =
        view h (sortByWeight srt h { o with sorted := false }).2 := s2'.symm
    rw [s2'']
    generalize (sortByWeight srt h { o with sorted := false }).2 = o1 at s3 ⊢
    rw [view_w, view_length]
    cases hw : (o1.g.map Ent.w)[(o1.g.length - 1) / 2]? with
    | none => exact Or.inl ⟨rfl, rfl⟩
    | some w =>
      simp only
      cases hb : bsearch (o1.g.map Ent.w) t (o1.g.length + 2) 0 (o1.g.length - 1) ((o1.g.length - 1) / 2)
          ((o1.g.length - 1) / 2 + 1) w with
      | none => exact Or.inl ⟨rfl, rfl⟩
      | some r =>
        obtain ⟨i0, w0⟩ := r
        simp only
        cases hsu : scanUp (o1.g.map Ent.w) t (o1.g.length + 1) i0 w0 with
        | none => exact Or.inl ⟨rfl, rfl⟩
        | some i1 =>
          simp only
          rcases removeFrom_sim ((List.range o1.g.length).drop i1) s3.hok s3.own with ⟨r1, r2⟩ | ⟨h2, o2, r1, r2, r3⟩
          · simp only [r1, r2]; exact Or.inl ⟨rfl, rfl⟩
          · simp only [r1, r2, view_length]
            obtain ⟨n1, n2, -⟩ := removeFrom_null _ r1
            simp only at n1 n2
            refine Or.inr ⟨_, h2, { o2 with g := o2.g.take (o2.g.length - (o1.g.length - i1)) }, rfl, ?_, ?_⟩
            · unfold view
              simp only [List.map_take]
            · refine (s3.trans r3).trans (Good.of_perm r3.hok r3.own ?_)
              simp only
              rw [take_ptrs]
              intro i x hi hx
              have hl := (List.getElem?_eq_some_iff.1 hx).1
              apply n2 i _ x hx
              rw [List.range_eq_range', List.drop_range', List.mem_range'_1]
              omega

/-! ### Copies -/

theorem freeAll_spec : ∀ (g : List (Ent K)) (h : Heap K d), HeapOK h → (ptrs g).Nodup → (∀ p ∈ ptrs g, (h.cells p).isSome) →
    ∃ h', freeAll g h = some h' ∧ HeapOK h' ∧ h'.next = h.next ∧ (∀ p, p ∉ ptrs g → h'.cells p = h.cells p) ∧
      ∀ p ∈ ptrs g, h'.cells p = none
  | [], h, hk, _, _ => ⟨h, rfl, hk, rfl, fun _ _ => rfl, by simp [ptrs]⟩
  | e :: g, h, hk, hn, hl => by
    unfold freeAll
    cases hp : e.ptr with
    | none =>
      have e1 : ptrs (e :: g) = ptrs g := by simp [ptrs, List.filterMap_cons, hp]
      rw [e1] at hn hl ⊢
      exact freeAll_spec g h hk hn hl
    | some p =>
      have e1 : ptrs (e :: g) = p :: ptrs g := by simp [ptrs, List.filterMap_cons, hp]
      rw [e1] at hn hl ⊢
      rw [List.nodup_cons] at hn
      obtain ⟨v, hv⟩ := Option.isSome_iff_exists.1 (hl p (by simp))
      simp only [Heap.free, hv]
      obtain ⟨h', a1, a2, a3, a4, a5⟩ := freeAll_spec g ⟨Function.update h.cells p none, h.next⟩
        (by
          intro q hq
          simp only [Function.update_apply]
          split
          · rfl
          · exact hk q hq) hn.2 (by
          intro q hq
          have hne : q ≠ p := fun h => hn.1 (h ▸ hq)
          simp only [Function.update_apply, hne, if_false]
          exact hl q (by simp [hq]))
      refine ⟨h', a1, a2, a3, ?_, ?_⟩
      · intro q hq
        rw [List.mem_cons, not_or] at hq
        rw [a4 q hq.2]
        simp [Function.update_apply, hq.1]
      · intro q hq
        rcases List.mem_cons.1 hq with rfl | hq
        · rw [a4 q hn.1]; simp
        · exact a5 q hq

/-- Cloning allocates fresh memory with equal contents. -/
theorem cloneSome_spec : ∀ (g : List (Ent K)) (h : Heap K d), HeapOK h → (∀ p ∈ ptrs g, (h.cells p).isSome) →
    ∃ h' g', cloneSome g h = some (h', g') ∧ HeapOK h' ∧ h.next ≤ h'.next ∧ (ptrs g').Nodup ∧
      (∀ p ∈ ptrs g', h.next ≤ p ∧ (h'.cells p).isSome) ∧ (∀ p, p < h.next → h'.cells p = h.cells p) ∧
      (∀ p, h.next ≤ p → (h'.cells p).isSome → p ∈ ptrs g') ∧ g'.map (ent h') = g.map (ent h)
  | [], h, hk, _ => by
    refine ⟨h, [], rfl, hk, le_rfl, by simp [ptrs], by simp [ptrs], fun _ _ => rfl, ?_, rfl⟩
    intro p hp hs
    rw [hk p hp] at hs
    cases hs
  | e :: g, h, hk, hl => by
    unfold cloneSome
    cases hp : e.ptr with
    | none =>
      have e1 : ptrs (e :: g) = ptrs g := by simp [ptrs, List.filterMap_cons, hp]
      rw [e1] at hl
      obtain ⟨h', g', a1, a2, a3, a4, a5, a6, a7, a8⟩ := cloneSome_spec g h hk hl
      have e2 : ptrs (e :: g') = ptrs g' := by simp [ptrs, List.filterMap_cons, hp]
      refine ⟨h', e :: g', by simp only [a1], a2, a3, by rw [e2]; exact a4, by rw [e2]; exact a5, a6, by rw [e2]; exact a7, ?_⟩
      rw [List.map_cons, List.map_cons, a8]
      simp [ent, hp]
    | some p =>
      have e1 : ptrs (e :: g) = p :: ptrs g := by simp [ptrs, List.filterMap_cons, hp]
      rw [e1] at hl
      obtain ⟨v, hv⟩ := Option.isSome_iff_exists.1 (hl p (by simp))
      have hlt : ∀ q ∈ ptrs g, q < h.next := fun q hq => hk.lt (hl q (by simp [hq]))
      have hka : HeapOK (h.alloc v) := by
        intro q hq
        simp only [Heap.alloc] at hq ⊢
        have hne : q ≠ h.next := by omega
        simp only [Function.update_apply, hne, if_false]
        exact hk q (by omega)
      have hca : ∀ q, q ≠ h.next → (h.alloc v).cells q = h.cells q := by
        intro q hq; simp [Heap.alloc, Function.update_apply, hq]
      obtain ⟨h', g', a1, a2, a3, a4, a5, a6, a7, a8⟩ := cloneSome_spec g (h.alloc v) hka (by
        intro q hq
        rw [hca q (by have := hlt q hq; omega)]
        exact hl q (by simp [hq]))
      have hnx : (h.alloc v).next = h.next + 1 := rfl
      have hself : (h.alloc v).cells h.next = some v := by simp [Heap.alloc]
      have e2 : ptrs ({ e with ptr := some h.next } :: g') = h.next :: ptrs g' := by simp [ptrs, List.filterMap_cons]
      refine ⟨h', { e with ptr := some h.next } :: g', by simp only [hv, a1], a2, by omega, ?_, ?_, ?_, ?_, ?_⟩
      · rw [e2, List.nodup_cons]
        refine ⟨?_, a4⟩
        intro hc
        have := (a5 _ hc).1
        omega
      · intro q hq
        rw [e2] at hq
        rcases List.mem_cons.1 hq with rfl | hq
        · refine ⟨le_rfl, ?_⟩
          rw [a6 h.next (by omega), hself]; rfl
        · have := a5 q hq
          exact ⟨by omega, this.2⟩
      · intro q hq
        rw [a6 q (by omega), hca q (by omega)]
      · intro q hq hs
        rw [e2]
        by_cases hqn : q = h.next
        · exact hqn ▸ List.mem_cons_self
        · exact List.mem_cons_of_mem _ (a7 q (by omega) hs)
      · rw [List.map_cons, List.map_cons, a8]
        congr 1
        · simp only [ent, Option.bind_some, hp]
          rw [a6 h.next (by omega), hself, hv]
        · apply ent_congr
          intro q hq
          exact hca q (by have := hlt q hq; omega)

theorem cloneAll_eq : ∀ (g : List (Ent K)) (h : Heap K d), (∀ e ∈ g, e.ptr.isSome) → cloneAll g h = cloneSome g h
  | [], h, _ => rfl
  | e :: g, h, ha => by
    unfold cloneAll cloneSome
    cases hp : e.ptr with
    | none => have := ha e (by simp); rw [hp] at this; cases this
    | some p =>
      simp only
      cases hv : h.cells p with
      | none => rfl
      | some v =>
        simp only
        rw [cloneAll_eq g _ (fun e' he' => ha e' (by simp [he']))]

theorem copyTo_spec {h : Heap K d} {src dst : Mix K} (hk : HeapOK h) (hs : Own h src.g) (hd : Own h dst.g)
    (hdis : ∀ p ∈ ptrs src.g, p ∉ ptrs dst.g) :
    ∃ h' o', copyTo h src dst = some (h', o') ∧ Good h dst.g h' o'.g ∧ view h' o' = view h src := by
  obtain ⟨h1, a1, a2, a3, a4, a5⟩ := freeAll_spec dst.g h hk hd.nodup hd.live
  obtain ⟨h2, g', b1, b2, b3, b4, b5, b6, b7, b8⟩ := cloneSome_spec src.g h1 a2 (fun p hp => by
    rw [a4 p (hdis p hp)]; exact hs.live p hp)
  refine ⟨h2, ⟨src.n, g', src.sorted⟩, by simp only [copyTo, a1, b1], ⟨b2, ⟨b4, fun p hp => (b5 p hp).2⟩, by omega, ?_, ?_, ?_⟩, ?_⟩
  · intro p hp
    have := (b5 p hp).1
    exact Or.inr (by omega)
  · intro p hp hn
    rw [b6 p (by omega), a4 p hn]
  · intro p hp
    by_cases hlt : p < h.next
    · right
      rw [b6 p (by omega)] at hp
      by_cases hin : p ∈ ptrs dst.g
      · rw [a5 p hin] at hp; cases hp
      · rw [a4 p hin] at hp
        exact ⟨hin, hlt, hp⟩
    · exact Or.inl (b7 p (by omega) hp)
  · unfold view
    simp only
    have e1 : g'.map (ent h2) = src.g.map (ent h) := by
      rw [b8]
      exact ent_congr (fun p hp => a4 p (hdis p hp))
    exact congrArg (fun l => (⟨src.n, l, src.sorted⟩ : GMix K d)) e1

theorem call_good {h : Heap K d} {o : Mix K} (hk : HeapOK h) (ho : Own h o.g) {c : Call K d} {h' : Heap K d} {o' : Mix K}
    (hsrt : ∀ srt, (c = .sort srt ∨ ∃ t, c = .prune srt t) → IsSort srt)
    (e : call h o c = some (h', o')) : Good h o.g h' o'.g := by
  cases c with
  | add v w => cases e; exact alloc_good hk ho v w
  | multiply w =>
    cases e
    exact Good.of_perm hk ho (List.Perm.of_eq (ptrs_map (fun e => rfl)))
  | remove i =>
    rcases removeGaussian_sim hk ho i with ⟨r1, -⟩ | ⟨h1, o1, r1, -, r3⟩
    · simp only [call, r1] at e; cases e
    · simp only [call, r1] at e; cases e; exact r3
  | setWeight i w =>
    simp only [call, setWeight] at e
    cases hi : o.g[i]? with
    | none => rw [hi] at e; cases e
    | some e0 =>
      rw [hi] at e; cases e
      exact Good.of_perm hk ho (List.Perm.of_eq (ptrs_set_same _ _ _ _ hi rfl))
  | update i l w =>
    simp only [call, updateGaussian] at e
    by_cases h0 : o.g.length < i
    · rw [if_pos h0] at e; cases e; exact Good.refl hk ho
    · rw [if_neg h0] at e
      cases hi : o.g[i]? with
      | none => rw [hi] at e; cases e
      | some e0 =>
        rw [hi] at e
        simp only at e
        cases hp : e0.ptr with
        | none => rw [hp] at e; cases e; exact Good.refl hk ho
        | some p =>
          rw [hp] at e
          obtain ⟨v, hv, -⟩ := ent_lm_some ho hi hp
          simp only [Heap.write, hv] at e
          cases e
          exact write_good hk ho hi hp _ rfl l
  | merge maha t f =>
    rcases merge_sim (maha := maha) (t := t) (f := f) hk ho with ⟨r1, -⟩ | ⟨a, h1, o1, r1, -, r3⟩
    · simp only [call, r1] at e; cases e
    · simp only [call, r1] at e; cases e; exact r3
  | sort srt =>
    cases e
    exact (sort_sim (hsrt srt (Or.inl rfl)) hk ho).2.2
  | prune srt t =>
    rcases prune_sim (hsrt srt (Or.inr ⟨t, rfl⟩)) t hk ho with ⟨r1, -⟩ | ⟨a, h1, o1, r1, -, r3⟩
    · simp only [call, r1] at e; cases e
    · simp only [call, r1] at e; cases e; exact r3
  | normalize =>
    simp only [call, normalizeWeights] at e
    cases hi : getWeightSum o with
    | none => rw [hi] at e; cases e
    | some s =>
      rw [hi] at e; cases e
      refine Good.of_perm hk ho (List.Perm.of_eq (ptrs_mapIdx _ _ ?_))
      intro i e; split <;> rfl

/-! ### Worlds -/

/-- All mixtures own their memory, no memory is shared, nothing has leaked. -/
structure WF (W : World K d) : Prop where
  hok : HeapOK W.heap
  own : ∀ (k : Nat) (o : Mix K), W.objs[k]? = some o → Own W.heap o.g
  disj : ∀ (k l : Nat) (o o' : Mix K), k ≠ l → W.objs[k]? = some o → W.objs[l]? = some o' → ∀ p ∈ ptrs o.g, p ∉ ptrs o'.g
  owned : ∀ p, (W.heap.cells p).isSome → ∃ (k : Nat) (o : Mix K), W.objs[k]? = some o ∧ p ∈ ptrs o.g

theorem WF.step {W : World K d} (hW : WF W) {k : Nat} {o o' : Mix K} {h' : Heap K d} (hk : W.objs[k]? = some o)
    (hg : Good W.heap o.g h' o'.g) : WF (⟨h', W.objs.set k o'⟩ : World K d) ∧
      ∀ (l : Nat) (ol : Mix K), l ≠ k → W.objs[l]? = some ol → view h' ol = view W.heap ol := by
  have hlen := (List.getElem?_eq_some_iff.1 hk).1
  have hcell : ∀ (l : Nat) (ol : Mix K), l ≠ k → W.objs[l]? = some ol → ∀ p ∈ ptrs ol.g, h'.cells p = W.heap.cells p ∧ p < W.heap.next := by
    intro l ol hl ho p hp
    have hlt := hW.hok.lt ((hW.own l ol ho).live p hp)
    exact ⟨hg.frame p hlt (hW.disj l k ol o hl ho hk p hp), hlt⟩
  have hcases : ∀ (l : Nat) (ol : Mix K), (W.objs.set k o')[l]? = some ol → (l = k ∧ ol = o') ∨ (l ≠ k ∧ W.objs[l]? = some ol) := by
    intro l ol h
    by_cases hl : k = l
    · subst hl
      rw [List.getElem?_set_self hlen] at h
      cases h; exact Or.inl ⟨rfl, rfl⟩
    · rw [List.getElem?_set_ne hl] at h
      exact Or.inr ⟨Ne.symm hl, h⟩
  refine ⟨⟨hg.hok, ?_, ?_, ?_⟩, ?_⟩
  · intro l ol h
    rcases hcases l ol h with ⟨rfl, rfl⟩ | ⟨hl, h⟩
    · exact hg.own
    · have := hW.own l ol h
      exact ⟨this.nodup, fun p hp => by simp only; rw [(hcell l ol hl h p hp).1]; exact this.live p hp⟩
  · intro a b oa ob hab ha hb p hp hpb
    rcases hcases a oa ha with ⟨rfl, rfl⟩ | ⟨ha', ha2⟩ <;> rcases hcases b ob hb with ⟨rfl, rfl⟩ | ⟨hb', hb2⟩
    · exact hab rfl
    · rcases hg.sub p hp with h | h
      · exact hW.disj b a ob o hb' hb2 hk p hpb h
      · have := (hcell b ob hb' hb2 p hpb).2; omega
    · rcases hg.sub p hpb with h | h
      · exact hW.disj a b oa o ha' ha2 hk p hp h
      · have := (hcell a oa ha' ha2 p hp).2; omega
    · exact hW.disj a b oa ob hab ha2 hb2 p hp hpb
  · intro p hp
    rcases hg.exact p hp with h | ⟨h1, h2, h3⟩
    · exact ⟨k, o', by rw [List.getElem?_set_self hlen], h⟩
    · obtain ⟨l, ol, hl, hpl⟩ := hW.owned p h3
      have hlk : k ≠ l := by
        intro h; subst h; rw [hk] at hl; cases hl; exact h1 hpl
      exact ⟨l, ol, by rw [List.getElem?_set_ne hlk]; exact hl, hpl⟩
  · intro l ol hl ho
    unfold view
    have := ent_congr (h := W.heap) (h' := h') (g := ol.g) (fun p hp => (hcell l ol hl ho p hp).1)
    exact congrArg (fun x => (⟨ol.n, x, ol.sorted⟩ : GMix K d)) this

/-- Adding an object that is empty. -/
theorem WF.push_empty {W : World K d} (hW : WF W) (o0 : Mix K) (h0 : o0.g = []) : WF (⟨W.heap, W.objs ++ [o0]⟩ : World K d) := by
  have hcases : ∀ (l : Nat) (ol : Mix K), (W.objs ++ [o0])[l]? = some ol → W.objs[l]? = some ol ∨ (l = W.objs.length ∧ ol = o0) := by
    intro l ol h
    rcases Nat.lt_or_ge l W.objs.length with hl | hl
    · rw [List.getElem?_append_left hl] at h; exact Or.inl h
    · rw [List.getElem?_append_right hl] at h
      have hlt := (List.getElem?_eq_some_iff.1 h).1
      simp at hlt
      have : l - W.objs.length = 0 := by omega
      rw [this] at h
      cases h
      exact Or.inr ⟨by omega, rfl⟩
  refine ⟨hW.hok, ?_, ?_, ?_⟩
  · intro l ol h
    rcases hcases l ol h with h | ⟨rfl, rfl⟩
    · exact hW.own l ol h
    · exact ⟨by simp [ptrs, h0], by simp [ptrs, h0]⟩
  · intro a b oa ob hab ha hb p hp hpb
    rcases hcases a oa ha with ha | ⟨rfl, rfl⟩
    · rcases hcases b ob hb with hb | ⟨rfl, rfl⟩
      · exact hW.disj a b oa ob hab ha hb p hp hpb
      · simp [ptrs, h0] at hpb
    · simp [ptrs, h0] at hp
  · intro p hp
    obtain ⟨l, ol, hl, hpl⟩ := hW.owned p hp
    exact ⟨l, ol, by rw [List.getElem?_append_left (List.getElem?_eq_some_iff.1 hl).1]; exact hl, hpl⟩

end GMHeap
end RFS
