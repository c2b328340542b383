import Verif.Model.Tree
import Mathlib.Data.List.Nodup
import Mathlib.Data.Fintype.Card
import Mathlib.Data.Fintype.EquivFin
import Mathlib.Tactic.Ring
import Mathlib.Tactic.Common

/-! C147, C148: the tree of `TreeNode`. -/

set_option linter.unusedSectionVars false

namespace RFS
namespace TreeProps
open Tree Function Relation

/-- `a` lists `b` as a child. -/
def Edge (h : Heap) (a b : Nat) : Prop := b ∈ h.children a

/-- What users take for granted of a tree: a node is listed by a node exactly if that is its parent, it is listed once, only nodes that have been created
take part, and no node is below itself. -/
structure Forest (h : Heap) : Prop where
  edge : ∀ p n, Edge h p n ↔ h.parent n = some p
  nodup : ∀ p, (h.children p).Nodup
  made : ∀ p n, Edge h p n → p < h.next ∧ n < h.next
  acyclic : ∀ n, ¬ TransGen (Edge h) n n

/-- How the operations are meant to be used: nodes exist, and a node that is added (or put in place of a child) has no parent yet and is not above the node it is
added to; a child may be replaced by itself. -/
def Proper (h : Heap) : Op → Prop
  | .create => True
  | .addNew p => p < h.next
  | .addChild p c => p < h.next ∧ ∃ n, c = some n ∧ n < h.next ∧ h.parent n = none ∧ ¬ ReflTransGen (Edge h) n p
  | .replaceChild p idx c => p < h.next ∧ ∃ n, c = some n ∧ n < h.next ∧ ((h.parent n = none ∧ ¬ ReflTransGen (Edge h) n p) ∨ (h.children p)[idx]? = some n)
  | .removeChildren p => p < h.next

/-- Each call is used as meant in the state it is made in. -/
def ProperAll (h : Heap) : List Op → Prop
  | [] => True
  | o :: os => Proper h o ∧ ∀ h', step h o = some h' → ProperAll h' os

theorem forest_empty : Forest Heap.empty := by
  refine ⟨by simp [Edge, Heap.empty], by simp [Heap.empty], by simp [Edge, Heap.empty], ?_⟩
  intro n h
  obtain ⟨m, h, -⟩ := TransGen.head'_iff.1 h
  simp [Edge, Heap.empty] at h

/-- Fewer edges make no cycle. -/
theorem acyclic_mono {r s : Nat → Nat → Prop} (h : ∀ a b, r a b → s a b) (hs : ∀ n, ¬ TransGen s n n) (n : Nat) : ¬ TransGen r n n :=
  fun hn => hs n (TransGen.mono h _ _ hn)

/-- A new edge to a node that is not above its start makes no cycle. -/
theorem acyclic_add {r s : Nat → Nat → Prop} {p c : Nat} (h : ∀ a b, s a b → r a b ∨ (a = p ∧ b = c)) (hr : ∀ n, ¬ TransGen r n n)
    (hc : ¬ ReflTransGen r c p) (n : Nat) : ¬ TransGen s n n := by
  have key : ∀ a b, TransGen s a b → TransGen r a b ∨ (ReflTransGen r a p ∧ ReflTransGen r c b) := by
    intro a b hab
    induction hab with
    | single hab =>
      rcases h _ _ hab with hr' | ⟨rfl, rfl⟩
      · exact Or.inl (.single hr')
      · exact Or.inr ⟨.refl, .refl⟩
    | tail _ hbc ih =>
      rcases h _ _ hbc with hr' | ⟨rfl, rfl⟩
      · rcases ih with ih | ⟨h1, h2⟩
        · exact Or.inl (ih.tail hr')
        · exact Or.inr ⟨h1, h2.tail hr'⟩
      · rcases ih with ih | ⟨h1, h2⟩
        · exact Or.inr ⟨ih.to_reflTransGen, .refl⟩
        · exact Or.inr ⟨h1, .refl⟩
  intro hn
  rcases key n n hn with h1 | ⟨h1, h2⟩
  · exact hr n h1
  · exact hc (h2.trans h1)

theorem foldl_reset (l : List Nat) (f : Nat → Option Nat) (n : Nat) :
    l.foldl (fun f c => update f c none) f n = if n ∈ l then none else f n := by
  induction l generalizing f with
  | nil => simp
  | cons a l ih =>
    rw [List.foldl_cons, ih]
    by_cases h1 : n ∈ l
    · simp [h1]
    · by_cases h2 : n = a
      · subst h2; simp
      · simp [h1, h2]

theorem no_edge_fresh {h : Heap} (hf : Forest h) {n : Nat} (hn : h.next ≤ n) : h.parent n = none ∧ h.children n = [] := by
  constructor
  · by_contra hc
    obtain ⟨p, hp⟩ := Option.ne_none_iff_exists'.1 hc
    have := (hf.made p n ((hf.edge p n).2 hp)).2
    omega
  · by_contra hc
    obtain ⟨m, hm⟩ := List.exists_mem_of_ne_nil _ hc
    have := (hf.made n m hm).1
    omega

theorem forest_create {h : Heap} (hf : Forest h) : Forest (create h).1 := by
  obtain ⟨h1, h2⟩ := no_edge_fresh hf (le_refl h.next)
  have e1 : update h.parent h.next none = h.parent := by rw [← h1]; exact update_eq_self _ _
  have e2 : update h.children h.next [] = h.children := by rw [← h2]; exact update_eq_self _ _
  have he : ∀ p n, Edge (create h).1 p n ↔ Edge h p n := by intro p n; simp only [Edge, create, e2]
  refine ⟨?_, ?_, ?_, ?_⟩
  · intro p n
    rw [he, hf.edge]
    simp only [create, e1]
  · intro p
    simp only [create, e2]
    exact hf.nodup p
  · intro p n hpn
    have := hf.made p n ((he p n).1 hpn)
    simp only [create]
    omega
  · exact fun n => acyclic_mono (fun a b => (he a b).1) hf.acyclic n

theorem forest_link {h : Heap} (hf : Forest h) {p n : Nat} (hp : p < h.next) (hn : n < h.next) (h0 : h.parent n = none)
    (ha : ¬ ReflTransGen (Edge h) n p) :
    Forest { h with parent := update h.parent n (some p), children := update h.children p (h.children p ++ [n]) } := by
  have hnot : ∀ a, n ∉ h.children a := fun a hm => by
    have := (hf.edge a n).1 hm
    rw [h0] at this
    cases this
  have he : ∀ a b, Edge { h with parent := update h.parent n (some p), children := update h.children p (h.children p ++ [n]) } a b ↔
      Edge h a b ∨ (a = p ∧ b = n) := by
    intro a b
    unfold Edge
    simp only [update_apply]
    by_cases hap : a = p
    · subst hap; simp
    · simp [hap]
  refine ⟨?_, ?_, ?_, ?_⟩
  · intro a b
    rw [he, hf.edge]
    simp only [update_apply]
    by_cases hb : b = n
    · subst hb
      rw [h0]
      simp [eq_comm]
    · simp [hb]
  · intro a
    simp only [update_apply]
    split
    · subst a
      exact List.nodup_append.2 ⟨hf.nodup _, by simp, by simp only [List.mem_singleton]; rintro x hx y rfl rfl; exact hnot _ hx⟩
    · exact hf.nodup a
  · intro a b hab
    rcases (he a b).1 hab with h1 | ⟨rfl, rfl⟩
    · exact hf.made a b h1
    · exact ⟨hp, hn⟩
  · exact fun m => acyclic_add (fun a b => (he a b).1) hf.acyclic ha m

theorem forest_unlink {h : Heap} (hf : Forest h) (p : Nat) : Forest (removeChildren h p) := by
  have he : ∀ a b, Edge (removeChildren h p) a b ↔ Edge h a b ∧ a ≠ p := by
    intro a b
    unfold Edge removeChildren
    simp only [update_apply]
    split <;> simp_all
  refine ⟨?_, ?_, ?_, ?_⟩
  · intro a b
    rw [he, hf.edge]
    simp only [removeChildren, foldl_reset]
    by_cases hb : b ∈ h.children p
    · have := (hf.edge p b).1 hb
      rw [this]
      simp only [hb, if_true, Option.some.injEq, reduceCtorEq, iff_false, not_and, not_not]
      exact fun h => h.symm
    · simp only [hb, if_false]
      constructor
      · exact fun h => h.1
      · intro hab
        refine ⟨hab, ?_⟩
        rintro rfl
        exact hb ((hf.edge a b).2 hab)
  · intro a
    simp only [removeChildren, update_apply]
    split
    · simp
    · exact hf.nodup a
  · exact fun a b hab => hf.made a b ((he a b).1 hab).1
  · exact fun m => acyclic_mono (fun a b hab => ((he a b).1 hab).1) hf.acyclic m

theorem forest_replace {h : Heap} (hf : Forest h) {p idx n old : Nat} (ho : (h.children p)[idx]? = some old) (hp : p < h.next) (hn : n < h.next)
    (hc : (h.parent n = none ∧ ¬ ReflTransGen (Edge h) n p) ∨ old = n) :
    Forest { h with parent := update (update h.parent old none) n (some p), children := update h.children p ((h.children p).set idx n) } := by
  obtain ⟨hi, ho'⟩ := List.getElem?_eq_some_iff.1 ho
  have hold : Edge h p old := List.mem_of_getElem? ho
  have hpo : h.parent old = some p := (hf.edge p old).1 hold
  rcases hc with ⟨h0, ha⟩ | rfl
  · have hne : n ≠ old := by rintro rfl; rw [h0] at hpo; cases hpo
    have hnot : ∀ a, n ∉ h.children a := fun a hm => by
      have := (hf.edge a n).1 hm
      rw [h0] at this
      cases this
    have hmem : ∀ b, b ∈ (h.children p).set idx n ↔ (b ∈ h.children p ∧ b ≠ old) ∨ b = n := by
      intro b
      constructor
      · intro hb
        obtain ⟨j, hj, hjb⟩ := List.getElem_of_mem hb
        rw [List.getElem_set] at hjb
        split at hjb
        · exact Or.inr hjb.symm
        · rename_i hij
          rw [List.length_set] at hj
          subst hjb
          refine Or.inl ⟨List.getElem_mem hj, ?_⟩
          intro he
          exact hij ((List.Nodup.getElem_inj_iff (hf.nodup p)).1 (ho'.trans he.symm))
      · rintro (⟨hb, hbo⟩ | rfl)
        · obtain ⟨j, hj, hjb⟩ := List.getElem_of_mem hb
          have hij : idx ≠ j := by rintro rfl; exact hbo (hjb.symm.trans ho')
          refine List.mem_iff_getElem.2 ⟨j, by simpa using hj, ?_⟩
          rw [List.getElem_set_ne hij]
          exact hjb
        · exact List.mem_set hi _
    have he : ∀ a b, Edge { h with parent := update (update h.parent old none) n (some p), children := update h.children p ((h.children p).set idx n) } a b ↔
        (Edge h a b ∧ b ≠ old) ∨ (a = p ∧ b = n) := by
      intro a b
      unfold Edge
      simp only [update_apply]
      by_cases hap : a = p
      · subst hap; simp [hmem]
      · simp only [hap, if_false, false_and, or_false]
        constructor
        · intro hab
          refine ⟨hab, ?_⟩
          rintro rfl
          have := (hf.edge a b).1 hab
          rw [hpo] at this
          exact hap (Option.some.inj this).symm
        · exact fun h => h.1
    refine ⟨?_, ?_, ?_, ?_⟩
    · intro a b
      rw [he, hf.edge]
      simp only [update_apply]
      by_cases hb : b = n
      · subst hb
        rw [h0]
        simp [eq_comm]
      · by_cases hb' : b = old
        · subst hb'; simp [hb]
        · simp [hb, hb']
    · intro a
      simp only [update_apply]
      split
      · subst a
        exact List.Nodup.set (hf.nodup p) (hnot p)
      · exact hf.nodup a
    · intro a b hab
      rcases (he a b).1 hab with ⟨h1, -⟩ | ⟨rfl, rfl⟩
      · exact hf.made a b h1
      · exact ⟨hp, hn⟩
    · refine fun m => acyclic_add (r := Edge h) (fun a b hab => ?_) hf.acyclic ha m
      rcases (he a b).1 hab with ⟨h1, -⟩ | h1
      · exact Or.inl h1
      · exact Or.inr h1
  · have e1 : update (update h.parent old none) old (some p) = h.parent := by
      rw [update_idem, ← hpo]; exact update_eq_self _ _
    have e2 : (h.children p).set idx old = h.children p := by
      rw [← ho', List.set_getElem_self]
    rw [e1, e2, update_eq_self]
    exact hf

theorem forest_addNew {h : Heap} (hf : Forest h) {p : Nat} (hp : p < h.next) : Forest (addNew h p).1 := by
  have hc := forest_create hf
  have h1 := no_edge_fresh hf (le_refl h.next)
  refine forest_link hc (n := h.next) ?_ ?_ ?_ ?_
  · simp only [create]; omega
  · simp [create]
  · simp [create]
  · intro hr
    rcases hr.cases_head with heq | ⟨m, hm, -⟩
    · omega
    · simp [Edge, create] at hm

/-- **C147**: any sequence of calls on trees that are used as meant leaves trees: parents and children agree, and no node is below itself; and no call fails. -/
theorem C147_forest_partial (h : Heap) (os : List Op) (hf : Forest h) (hp : ProperAll h os) : ∃ h', runOps h os = some h' ∧ Forest h' := by
  induction os generalizing h with
  | nil => exact ⟨h, rfl, hf⟩
  | cons o os ih =>
    obtain ⟨h1, h2⟩ := hp
    have : ∃ h', step h o = some h' ∧ Forest h' := by
      cases o with
      | create => exact ⟨_, rfl, forest_create hf⟩
      | addNew p => exact ⟨_, rfl, forest_addNew hf h1⟩
      | addChild p c =>
        obtain ⟨hp, n, rfl, hn, h0, ha⟩ := h1
        exact ⟨_, rfl, forest_link hf hp hn h0 ha⟩
      | replaceChild p idx c =>
        obtain ⟨hp, n, rfl, hn, hc⟩ := h1
        cases ho : (h.children p)[idx]? with
        | none => exact ⟨h, by simp [step, replaceChild, ho], hf⟩
        | some old =>
          refine ⟨_, by simp only [step, replaceChild, ho, Option.map_some], forest_replace hf ho hp hn ?_⟩
          rcases hc with hc | hc
          · exact Or.inl hc
          · rw [ho] at hc
            exact Or.inr (Option.some.inj hc)
      | removeChildren p => exact ⟨_, rfl, forest_unlink hf p⟩
    obtain ⟨h', e, hf'⟩ := this
    obtain ⟨h'', e', hf''⟩ := ih h' hf' (h2 h' e)
    exact ⟨h'', by rw [runOps, e]; exact e', hf''⟩

/-- A child that is added or put in place of another is found where it was put, with its new parent; the child it replaces has none; children that are removed have none. -/
theorem C147_effect (h : Heap) (p idx n : Nat) :
    (∀ h', addChild h p (some n) = some h' → getChild h' p (getChildrenCount h p) = some n ∧ h'.parent n = some p ∧
      getChildrenCount h' p = getChildrenCount h p + 1 ∧ (∀ i < getChildrenCount h p, getChild h' p i = getChild h p i) ∧
      (∀ q ≠ p, h'.children q = h.children q) ∧ ∀ m ≠ n, h'.parent m = h.parent m) ∧
    (∀ h' ok, replaceChild h p idx (some n) = some (h', ok) →
      if idx < getChildrenCount h p then ok = true ∧ getChild h' p idx = some n ∧ h'.parent n = some p ∧ getChildrenCount h' p = getChildrenCount h p ∧
        (∀ i ≠ idx, getChild h' p i = getChild h p i) ∧ (∀ q ≠ p, h'.children q = h.children q) ∧
        (∀ m, getChild h p idx = some m → m ≠ n → h'.parent m = none) ∧ (∀ m ≠ n, getChild h p idx ≠ some m → h'.parent m = h.parent m)
      else ok = false ∧ h' = h) ∧
    (getChildrenCount (removeChildren h p) p = 0 ∧ (∀ m ∈ h.children p, (removeChildren h p).parent m = none) ∧
      (∀ q ≠ p, (removeChildren h p).children q = h.children q) ∧ ∀ m ∉ h.children p, (removeChildren h p).parent m = h.parent m) := by
  refine ⟨?_, ?_, ?_⟩
  · rintro h' e
    simp only [addChild, Option.map_some, Option.some.injEq] at e
    subst e
    simp only [getChild, getChildrenCount, update_self, List.length_append, List.length_singleton]
    refine ⟨by simp, trivial, trivial, ?_, ?_, ?_⟩
    · intro i hi
      rw [if_pos (by omega), if_pos hi, List.getElem?_append_left hi]
    · exact fun q hq => update_of_ne hq _ _
    · exact fun m hm => update_of_ne hm _ _
  · intro h' ok e
    unfold replaceChild at e
    by_cases hi : idx < (h.children p).length
    · rw [if_pos (show idx < getChildrenCount h p from hi)]
      rw [List.getElem?_eq_getElem hi] at e
      simp only [Option.map_some, Option.some.injEq, Prod.mk.injEq] at e
      obtain ⟨rfl, rfl⟩ := e
      simp only [getChild, getChildrenCount, update_self, List.length_set, hi, if_true]
      refine ⟨trivial, by simp [hi], trivial, trivial, ?_, ?_, ?_, ?_⟩
      · intro i hii
        rw [List.getElem?_set_ne (Ne.symm hii)]
      · exact fun q hq => update_of_ne hq _ _
      · intro m hm hmn
        rw [List.getElem?_eq_getElem hi, Option.some.injEq] at hm
        subst hm
        rw [update_of_ne hmn, update_self]
      · intro m hm hne
        rw [List.getElem?_eq_getElem hi] at hne
        rw [update_of_ne hm, update_of_ne (fun hc => hne (by rw [hc]))]
    · rw [if_neg (show ¬ idx < getChildrenCount h p from hi)]
      rw [List.getElem?_eq_none (by omega)] at e
      simp only [Option.some.injEq, Prod.mk.injEq] at e
      exact ⟨e.2.symm, e.1.symm⟩
  · simp only [removeChildren, getChildrenCount, update_self, List.length_nil, foldl_reset, true_and]
    exact ⟨fun m hm => if_pos hm, fun q hq => update_of_ne hq _ _, fun m hm => if_neg hm⟩

/-- A node that already has a parent can be added to another one. It is then a child of both; `removeChildren` of the first leaves it a child of the second, without a parent.
And a node can be added to itself. -/
theorem C147_violated : (∃ os h, runOps Heap.empty os = some h ∧ Edge h 1 2 ∧ Edge h 0 2 ∧ ∃ h', step h (.removeChildren 0) = some h' ∧ Edge h' 1 2 ∧ h'.parent 2 = none) ∧
    ∃ os h, runOps Heap.empty os = some h ∧ TransGen (Edge h) 0 0 := by
  refine ⟨⟨[.create, .create, .addNew 0, .addChild 1 (some 2)], _, rfl, ?_, ?_, _, rfl, ?_, ?_⟩, ⟨[.create, .addChild 0 (some 0)], _, rfl, .single ?_⟩⟩ <;>
    simp [Edge, create, addNew, Heap.empty, removeChildren]

/-- Null pointers are not refused. -/
theorem C147_null_violated (h : Heap) (p idx : Nat) (hi : idx < getChildrenCount h p) : addChild h p none = none ∧ replaceChild h p idx none = none := by
  refine ⟨rfl, ?_⟩
  unfold replaceChild
  rw [List.getElem?_eq_getElem hi]
  rfl

/-- **C148**: in a tree, `getParent` gives the node that lists this one as a child, as long as that node lives; a node that lives only as a child has a parent. -/
theorem C148_parent (h : Heap) (held : Nat → Prop) (hf : Forest h) (n p : Nat) : getParent h held n = some p ↔ Edge h p n ∧ Alive h held p := by
  unfold getParent
  rw [hf.edge]
  cases hp : h.parent n with
  | none => simp
  | some q =>
    simp only [Option.bind_some, Option.some.injEq]
    by_cases ha : Alive h held q
    · rw [if_pos ha, Option.some.injEq]
      exact ⟨fun e => ⟨e, e ▸ ha⟩, fun e => e.1⟩
    · rw [if_neg ha]
      simp only [reduceCtorEq, false_iff, not_and]
      exact fun e ha' => ha (e ▸ ha')

/-- A node that lives though the user does not hold it has a parent. -/
theorem C148_alive (h : Heap) (held : Nat → Prop) (hf : Forest h) (n : Nat) (ha : Alive h held n) (hn : ¬ held n) : ∃ p, getParent h held n = some p := by
  obtain ⟨r, hr, hrn⟩ := ha
  rcases hrn.cases_tail with heq | ⟨m, hrm, hm⟩
  · exact absurd (heq ▸ hr) hn
  · exact ⟨m, (C148_parent h held hf n m).2 ⟨hm, r, hr, hrm⟩⟩

/-- The nodes met on the way up, at most `fuel` of them. -/
noncomputable def wayUp (h : Heap) (held : Nat → Prop) : Nat → Nat → List Nat
  | 0, _ => []
  | fuel + 1, n => n :: match getParent h held n with
    | none => []
    | some p => wayUp h held fuel p

theorem wayUp_below {h : Heap} {held : Nat → Prop} (hf : Forest h) (fuel n : Nat) : ∀ m ∈ wayUp h held fuel n, ReflTransGen (Edge h) m n := by
  induction fuel generalizing n with
  | zero => simp [wayUp]
  | succ f ih =>
    intro m hm
    rw [wayUp, List.mem_cons] at hm
    rcases hm with rfl | hm
    · exact .refl
    · cases hg : getParent h held n with
      | none => rw [hg] at hm; simp at hm
      | some p =>
        rw [hg] at hm
        exact (ih p m hm).tail ((C148_parent h held hf n p).1 hg).1

theorem wayUp_nodup {h : Heap} {held : Nat → Prop} (hf : Forest h) (fuel n : Nat) : (wayUp h held fuel n).Nodup := by
  induction fuel generalizing n with
  | zero => simp [wayUp]
  | succ f ih =>
    rw [wayUp, List.nodup_cons]
    cases hg : getParent h held n with
    | none => simp
    | some p =>
      refine ⟨fun hm => ?_, ih p⟩
      exact hf.acyclic n (TransGen.tail' (wayUp_below hf f p n hm) ((C148_parent h held hf n p).1 hg).1)

theorem wayUp_lt {h : Heap} {held : Nat → Prop} (hf : Forest h) (fuel n : Nat) (hn : n < h.next) : ∀ m ∈ wayUp h held fuel n, m < h.next := by
  induction fuel generalizing n with
  | zero => simp [wayUp]
  | succ f ih =>
    intro m hm
    rw [wayUp, List.mem_cons] at hm
    rcases hm with rfl | hm
    · exact hn
    · cases hg : getParent h held n with
      | none => rw [hg] at hm; simp at hm
      | some p =>
        rw [hg] at hm
        exact ih p (hf.made p n ((C148_parent h held hf n p).1 hg).1).1 m hm

theorem nodup_length {l : List Nat} {k : Nat} (hl : l.Nodup) (h : ∀ m ∈ l, m < k) : l.length ≤ k := by
  have := List.Subperm.length_le (hl.subperm (fun m hm => List.mem_range.2 (h m hm)))
  simpa using this

/-- Following `getParent` ends, after no more steps than there are nodes, at a node without parent; no node is met twice. -/
theorem C148_root (h : Heap) (held : Nat → Prop) (hf : Forest h) (n : Nat) (hn : n < h.next) :
    (wayUp h held h.next n).Nodup ∧ ∃ r, (wayUp h held h.next n).getLast? = some r ∧ getParent h held r = none := by
  refine ⟨wayUp_nodup hf _ n, ?_⟩
  have key : ∀ fuel m, m < h.next → (wayUp h held fuel m).length < fuel ∨ fuel = (wayUp h held fuel m).length →
      (∃ r, (wayUp h held fuel m).getLast? = some r ∧ getParent h held r = none) ∨ (wayUp h held fuel m).length = fuel := by
    intro fuel
    induction fuel with
    | zero => intro m _ _; exact Or.inr rfl
    | succ f ih =>
      intro m hm _
      cases hg : getParent h held m with
      | none => exact Or.inl ⟨m, by simp [wayUp, hg], hg⟩
      | some p =>
        have hp := (hf.made p m ((C148_parent h held hf m p).1 hg).1).1
        have hlen : ∀ g q, (wayUp h held g q).length ≤ g := by
          intro g
          induction g with
          | zero => simp [wayUp]
          | succ g ihg =>
            intro q
            rw [wayUp]
            cases getParent h held q with
            | none => simp
            | some q' => simpa using ihg q'
        rcases ih p hp (lt_or_eq_of_le (hlen f p) |>.imp id Eq.symm) with ⟨r, hr, hr'⟩ | he
        · refine Or.inl ⟨r, ?_, hr'⟩
          rw [wayUp, hg]
          simp only
          rw [List.getLast?_cons, hr]
          rfl
        · refine Or.inr ?_
          rw [wayUp, hg]
          simpa using he
  -- one more step of fuel would make the list longer than the number of nodes
  have h1 := key (h.next + 1) n hn
  have h2 : (wayUp h held (h.next + 1) n).length ≤ h.next := nodup_length (wayUp_nodup hf _ n) (wayUp_lt hf _ n hn)
  rcases h1 (Or.inl (by omega)) with ⟨r, hr, hr'⟩ | he
  · have same : ∀ fuel m, (wayUp h held (fuel + 1) m).length ≤ fuel → wayUp h held (fuel + 1) m = wayUp h held fuel m := by
      intro fuel
      induction fuel with
      | zero => intro m hm; simp [wayUp] at hm
      | succ f ih =>
        intro m hm
        rw [wayUp] at hm
        rw [wayUp]
        conv_rhs => rw [wayUp]
        cases hg : getParent h held m with
        | none => rfl
        | some p =>
          rw [hg] at hm
          simp only [List.length_cons] at hm
          simp only [ih p (by omega)]
    rw [same h.next n h2] at hr
    exact ⟨r, hr, hr'⟩
  · omega

/-- The hypotheses can be met: a root with two children, the second of which has a child. -/
example : ProperAll Heap.empty [.create, .addNew 0, .addNew 0, .addNew 2, .replaceChild 0 0 (some 1), .removeChildren 2] := by
  refine ⟨trivial, fun h1 e1 => ?_⟩
  cases e1
  refine ⟨by simp [Proper, create, Heap.empty], fun h2 e2 => ?_⟩
  cases e2
  refine ⟨by simp [Proper, create, addNew, Heap.empty], fun h3 e3 => ?_⟩
  cases e3
  refine ⟨by simp [Proper, create, addNew, Heap.empty], fun h4 e4 => ?_⟩
  cases e4
  refine ⟨?_, fun h5 e5 => ?_⟩
  · refine ⟨by simp [create, addNew, Heap.empty], 1, rfl, by simp [create, addNew, Heap.empty], Or.inr ?_⟩
    simp [create, addNew, Heap.empty]
  · cases e5
    exact ⟨by simp [Proper, create, addNew, Heap.empty], fun _ _ => trivial⟩

end TreeProps
end RFS
