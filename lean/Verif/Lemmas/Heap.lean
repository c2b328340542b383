import Verif.Model.Heap
import Mathlib.Tactic.Abel
import Mathlib.Data.List.Forall2
import Mathlib.Algebra.Order.BigOperators.Group.List

/-! Lemmas for `Verif.Model.Heap`. -/

set_option linter.unusedSectionVars false

namespace RFS
namespace Heap

theorem bind_ok_iff {α β : Type} {x : Except Err α} {f : α → Except Err β} {b : β} : x.bind f = .ok b ↔ ∃ a, x = .ok a ∧ f a = .ok b := by
  cases x with
  | error e => simp [Except.bind]
  | ok a => simp [Except.bind]

theorem map_ok_iff {α β : Type} {x : Except Err α} {f : α → β} {b : β} : x.map f = .ok b ↔ ∃ a, x = .ok a ∧ f a = b := by
  cases x with
  | error e => simp [Except.map]
  | ok a => simp [Except.map]

/-- No block is listed twice and later blocks have new numbers. -/
structure WF (h : H) : Prop where
  nodup : h.live.Nodup
  lt : ∀ p ∈ h.live, p < h.next

theorem WF.new {h : H} (w : WF h) : WF (new h).2 := by
  constructor
  · exact Multiset.nodup_cons.2 ⟨fun hm => Nat.lt_irrefl _ (w.lt _ hm), w.nodup⟩
  · intro p hp
    rcases Multiset.mem_cons.1 hp with rfl | hp
    · exact Nat.lt_succ_self _
    · exact Nat.lt_succ_of_lt (w.lt _ hp)

theorem WF.newMany {k : Nat} : ∀ {h : H}, WF h → WF (newMany k h).2 := by
  induction k with
  | zero => exact fun w => w
  | succ k ih => exact fun w => ih w.new

theorem WF.newMat {k : Nat} {h : H} (w : WF h) : WF (newMat k h).2 := w.new.newMany

theorem free_ok {h h' : H} {p : Nat} (e : free h p = .ok h') : p ∈ h.live ∧ h' = ⟨h.next, h.live.erase p⟩ := by
  unfold free at e
  split at e
  · rename_i hp
    exact ⟨hp, (Except.ok.inj e).symm⟩
  · cases e

theorem WF.free {h h' : H} {p : Nat} (w : WF h) (e : free h p = .ok h') : WF h' := by
  obtain ⟨_, rfl⟩ := free_ok e
  exact ⟨w.nodup.erase _, fun q hq => w.lt q (Multiset.mem_of_mem_erase hq)⟩

theorem freeMany_cons (p : Nat) (ps : List Nat) (h : H) : freeMany (p :: ps) h = (free h p).bind (freeMany ps) := by
  unfold freeMany
  rw [List.foldlM_cons]
  cases free h p <;> rfl

theorem freeMany_nil (h : H) : freeMany [] h = .ok h := rfl

theorem freeMany_append (ps qs : List Nat) : ∀ h : H, freeMany (ps ++ qs) h = (freeMany ps h).bind (freeMany qs) := by
  induction ps with
  | nil => exact fun h => rfl
  | cons p ps ih =>
    intro h
    rw [List.cons_append, freeMany_cons, freeMany_cons]
    cases free h p with
    | error e => rfl
    | ok a => exact ih a

/-- Blocks that are allocated can be freed; the others stay. -/
theorem freeMany_add (l : List Nat) : ∀ (h : H) (r : Multiset Nat), h.live = (l : Multiset Nat) + r → freeMany l h = .ok ⟨h.next, r⟩ := by
  induction l with
  | nil =>
    intro h r e
    have : h.live = r := by simpa using e
    rw [freeMany_nil, ← this]
  | cons p ps ih =>
    intro h r e
    have hp : p ∈ h.live := by rw [e]; simp
    have hf : free h p = .ok ⟨h.next, h.live.erase p⟩ := by unfold free; rw [if_pos hp]
    rw [freeMany_cons, hf]
    show freeMany ps _ = _
    rw [ih ⟨h.next, h.live.erase p⟩ r]
    show h.live.erase p = _
    rw [e, ← Multiset.cons_coe, Multiset.cons_add, Multiset.erase_cons_head]

theorem freeMany_le {l : List Nat} : ∀ {h h' : H}, freeMany l h = .ok h' → WF h → WF h' ∧ (∀ p ∈ h'.live, p ∈ h.live) ∧ ∀ p ∈ l, p ∉ h'.live := by
  induction l with
  | nil =>
    intro h h' e w
    rw [freeMany_nil] at e
    cases e
    exact ⟨w, fun p hp => hp, fun p hp => by simp at hp⟩
  | cons p ps ih =>
    intro h h' e w
    rw [freeMany_cons] at e
    obtain ⟨h1, e1, e2⟩ := bind_ok_iff.1 e
    obtain ⟨a, b, c⟩ := ih e2 (w.free e1)
    obtain ⟨hp, rfl⟩ := free_ok e1
    refine ⟨a, fun q hq => Multiset.mem_of_mem_erase (b q hq), ?_⟩
    intro q hq
    rcases List.mem_cons.1 hq with rfl | hq
    · intro hm
      exact (Multiset.Nodup.mem_erase_iff w.nodup).1 (b _ hm) |>.1 rfl
    · exact c q hq

/-- What was freed cannot be freed again. -/
theorem freeMany_twice {l : List Nat} (hl : l ≠ []) {h h' : H} (w : WF h) (e : freeMany l h = .ok h') : freeMany l h' = .error .badFree := by
  obtain ⟨_, _, c⟩ := freeMany_le e w
  cases l with
  | nil => exact absurd rfl hl
  | cons p ps =>
    rw [freeMany_cons]
    have : free h' p = .error .badFree := by unfold free; rw [if_neg (c p (by simp))]
    rw [this]
    rfl

theorem newMany_spec (k : Nat) : ∀ h : H, (newMany k h).1.length = k ∧ (newMany k h).2.live = ((newMany k h).1 : Multiset Nat) + h.live := by
  induction k with
  | zero => intro h; simp [newMany]
  | succ k ih =>
    intro h
    obtain ⟨a, b⟩ := ih (new h).2
    refine ⟨by simp [newMany, a], ?_⟩
    show (newMany k (new h).2).2.live = _
    rw [b]
    show _ + ((h.next) ::ₘ h.live) = ((h.next :: (newMany k (new h).2).1 : List Nat) : Multiset Nat) + h.live
    rw [← Multiset.cons_coe, Multiset.add_cons, Multiset.cons_add]

/-- The blocks of a matrix. -/
def Mat.own (m : Mat) : Multiset Nat := m.arr ::ₘ (m.rows : Multiset Nat)

theorem newMat_spec (k : Nat) (h : H) : (newMat k h).1.rows.length = k ∧ (newMat k h).2.live = (newMat k h).1.own + h.live := by
  obtain ⟨a, b⟩ := newMany_spec k (new h).2
  refine ⟨a, ?_⟩
  show (newMany k (new h).2).2.live = _
  rw [b]
  show _ + ((h.next) ::ₘ h.live) = (h.next ::ₘ ((newMany k (new h).2).1 : Multiset Nat)) + h.live
  rw [Multiset.add_cons, Multiset.cons_add]

theorem Mat.deletes_own {m : Mat} {r : Nat} (hr : r ≤ m.rows.length) :
    ∃ l, m.deletes r = .ok l ∧ l ≠ [] ∧ ∃ lost : Multiset Nat, m.own = (l : Multiset Nat) + lost ∧ lost.card = m.rows.length - r := by
  refine ⟨_, if_pos hr, by simp, (m.rows.drop r : List Nat), ?_, by simp⟩
  rw [← Multiset.coe_add]
  unfold Mat.own
  conv_lhs => rw [← List.take_append_drop r m.rows]
  rw [← Multiset.coe_add, Multiset.coe_singleton, ← Multiset.singleton_add]
  abel

theorem Mat.deletes_all {m : Mat} {r : Nat} (hr : m.rows.length = r) : ∃ l, m.deletes r = .ok l ∧ l ≠ [] ∧ (l : Multiset Nat) = m.own := by
  obtain ⟨l, e, n, lost, h1, h2⟩ := Mat.deletes_own (m := m) (le_of_eq hr.symm)
  refine ⟨l, e, n, ?_⟩
  rw [hr, Nat.sub_self] at h2
  rw [h1, Multiset.card_eq_zero.1 h2, add_zero]

theorem Mat.deletes_err {m : Mat} {r : Nat} (hr : m.rows.length < r) : m.deletes r = .error .outOfBounds := if_neg (by omega)

/-! ### CostMatrixGeneral -/

/-- The blocks of a partition. -/
def PCell.own (c : PCell) : Multiset Nat :=
  match c.mat with
  | none => 0
  | some m => m.1.own + {m.2.1} + {m.2.2}

/-- The blocks of the partitions. -/
def Parts.own (s : Parts) : Multiset Nat := {s.ci} + {s.cj} + {s.cm} + {s.cr} + {s.cc} + {s.ce} + (s.cells.map PCell.own).sum

/-- The blocks of a matrix object. -/
def Gen.own (o : Gen) : Multiset Nat :=
  o.C.own + match o.part with
  | none => 0
  | some s => s.own

/-- The partition after being fetched with the flags `f`, in this order. -/
def Rel (c : PCell) (f : List Bool) : Prop :=
  c.ext = f.getLast? ∧
    match c.mat with
    | none => f = []
    | some m => ∃ a, f.head? = some a ∧ m.1.rows.length = c.size.1 + if a then c.size.2 else 0

theorem new_live (h : H) : (new h).2.live = {(new h).1} + h.live := (Multiset.singleton_add _ _).symm

theorem sum_set {α : Type} (f : α → Multiset Nat) : ∀ (l : List α) (p : Nat) (x y : α) (r : Multiset Nat), l[p]? = some x → f y = r + f x → ((l.set p y).map f).sum = r + (l.map f).sum := by
  intro l
  induction l with
  | nil => intro p x y r h; simp at h
  | cons a l ih =>
    intro p x y r h e
    cases p with
    | zero =>
      have : a = x := by simpa using h
      subst this
      simp [e, add_assoc]
    | succ p =>
      have h' : l[p]? = some x := by simpa using h
      simp only [List.set_cons_succ, List.map_cons, List.sum_cons, ih p x y r h' e]
      abel

theorem forall2_set {α β : Type} {R : α → β → Prop} {l : List α} {k : List β} (hf : List.Forall₂ R l k) : ∀ (p : Nat) (x : α) (y : β), R x y → List.Forall₂ R (l.set p x) (k.set p y) := by
  induction hf with
  | nil => intro p x y h; simp
  | cons h t ih =>
    intro p x y hr
    cases p with
    | zero => exact .cons hr t
    | succ p => exact .cons h (ih p x y hr)

theorem forall2_get {α β : Type} {R : α → β → Prop} {l : List α} {k : List β} (hf : List.Forall₂ R l k) : ∀ {p : Nat} {x : α}, l[p]? = some x → ∃ y, k[p]? = some y ∧ R x y := by
  induction hf with
  | nil => intro p x h; simp at h
  | cons h t ih =>
    intro p x hx
    cases p with
    | zero =>
      cases hx
      exact ⟨_, rfl, h⟩
    | succ p => exact ih (by simpa using hx)

/-- What holds of a matrix whose partitions `ns` were fetched with the flags `fs`. -/
structure Inv (nR nC : Nat) (base : Multiset Nat) (ns : List (Nat × Nat)) (fs : List (List Bool)) (s : Gen × H) (t : Parts) : Prop where
  part : s.1.part = some t
  nr : s.1.nR = nR
  nc : s.1.nC = nC
  rows : s.1.C.rows.length = nR
  live : s.2.live = s.1.own + base
  sizes : t.cells.map PCell.size = ns
  rel : List.Forall₂ Rel t.cells fs

/-- What holds of a matrix that was not partitioned. -/
structure Inv0 (nR nC : Nat) (base : Multiset Nat) (s : Gen × H) : Prop where
  part : s.1.part = none
  nr : s.1.nR = nR
  nc : s.1.nC = nC
  rows : s.1.C.rows.length = nR
  live : s.2.live = s.1.own + base

theorem inv0_new (nR nC : Nat) (h : H) : Inv0 nR nC h.live (Gen.new nR nC h) := by
  obtain ⟨a, b⟩ := newMat_spec nR h
  refine ⟨rfl, rfl, rfl, a, ?_⟩
  show (newMat nR h).2.live = _
  rw [b]
  show _ = (newMat nR h).1.own + 0 + h.live
  rw [add_zero]

/-- `partition()` on a matrix that was not partitioned. -/
theorem inv_partition {nR nC : Nat} {base : Multiset Nat} {s : Gen × H} (h : Inv0 nR nC base s) (hn : nR + nC ≠ 0) (ns : List (Nat × Nat)) :
    ∃ s' t, s.1.partition ns s.2 = .ok s' ∧ Inv nR nC base ns (ns.map fun _ => []) s' t := by
  unfold Gen.partition
  rw [h.part]
  simp only
  rw [if_neg (by rw [h.nr, h.nc]; exact hn)]
  refine ⟨_, _, rfl, ⟨rfl, h.nr, h.nc, h.rows, ?_, by simp [Function.comp_def], ?_⟩⟩
  · have hl := h.live
    unfold Gen.own at hl ⊢
    rw [h.part] at hl
    simp only [new_live, hl, Parts.own]
    have : ((ns.map fun n => (⟨n, none, none⟩ : PCell)).map PCell.own).sum = 0 := by
      rw [List.map_map]
      induction ns with
      | nil => rfl
      | cons a l ih => rw [List.map_cons, List.sum_cons, ih]; rfl
    rw [this]
    abel
  · rw [List.forall₂_map_left_iff, List.forall₂_map_right_iff, List.forall₂_same]
    exact fun x _ => ⟨rfl, rfl⟩

/-- `getPartition(p, .., e)`. -/
theorem inv_get {nR nC : Nat} {base : Multiset Nat} {ns : List (Nat × Nat)} {fs : List (List Bool)} {s : Gen × H} {t : Parts} (h : Inv nR nC base ns fs s t) (p : Nat) (e : Bool) (hp : p < ns.length) :
    ∃ s' t' f, fs[p]? = some f ∧ s.1.get p e s.2 = .ok s' ∧ Inv nR nC base ns (fs.set p (f ++ [e])) s' t' := by
  have hlen : t.cells.length = ns.length := by rw [← h.sizes, List.length_map]
  obtain ⟨c, hc⟩ : ∃ c, t.cells[p]? = some c := ⟨t.cells[p]'(by omega), by simp [hlen, hp]⟩
  obtain ⟨f, hf, hr⟩ := forall2_get h.rel hc
  have hown : s.1.own = s.1.C.own + t.own := by unfold Gen.own; rw [h.part]
  unfold Gen.get
  rw [h.part]
  simp only [hc]
  cases hm : c.mat with
  | some m =>
    obtain ⟨hr1, hr2⟩ := hr
    simp only [hm] at hr2
    obtain ⟨a, ha, hl⟩ := hr2
    refine ⟨_, _, f, hf, rfl, ⟨rfl, h.nr, h.nc, h.rows, ?_, ?_, ?_⟩⟩
    · show s.2.live = _
      rw [h.live, hown]
      unfold Gen.own Parts.own
      simp only
      rw [sum_set PCell.own t.cells p c _ 0 hc (by simp [PCell.own, hm]), zero_add]
    · rw [← h.sizes]
      show ((t.cells.set p _).map PCell.size) = _
      rw [List.map_set]
      exact List.ext_getElem? fun i => by
        rw [List.getElem?_set]
        split
        · rename_i hi
          subst hi
          simp [hlen, hp, (List.getElem?_eq_some_iff.1 hc).2]
        · rfl
    · refine forall2_set h.rel p _ _ ⟨by simp, ?_⟩
      simp only [hm]
      refine ⟨a, ?_, hl⟩
      rw [List.head?_append, ha]
      rfl
  | none =>
    obtain ⟨hr1, hr2⟩ := hr
    simp only [hm] at hr2
    subst hr2
    refine ⟨_, _, [], hf, rfl, ⟨rfl, h.nr, h.nc, h.rows, ?_, ?_, ?_⟩⟩
    · simp only
      rw [new_live, new_live, (newMat_spec _ _).2, h.live, hown]
      unfold Gen.own Parts.own
      simp only
      rw [sum_set PCell.own t.cells p c _ _ hc (by simp only [PCell.own, hm]; rw [add_zero])]
      abel
    · rw [← h.sizes]
      show ((t.cells.set p _).map PCell.size) = _
      rw [List.map_set]
      exact List.ext_getElem? fun i => by
        rw [List.getElem?_set]
        split
        · rename_i hi
          subst hi
          simp [hlen, hp, (List.getElem?_eq_some_iff.1 hc).2]
        · rfl
    · refine forall2_set h.rel p _ _ ⟨by simp, ?_⟩
      simp only
      refine ⟨e, by simp, ?_⟩
      rw [(newMat_spec _ _).1]
      cases e <;> simp

theorem WF.partition {o : Gen} {l : List (Nat × Nat)} {h : H} {s : Gen × H} (w : WF h) (e : o.partition l h = .ok s) : WF s.2 := by
  unfold Gen.partition at e
  split at e
  · cases e; exact w
  · split at e
    · cases e
    · cases e
      exact w.new.new.new.new.new.new

theorem WF.get {o : Gen} {p : Nat} {b : Bool} {h : H} {s : Gen × H} (w : WF h) (e : o.get p b h = .ok s) : WF s.2 := by
  unfold Gen.get at e
  split at e
  · cases e; exact w
  · split at e
    · cases e
    · split at e
      · cases e; exact w
      · cases e
        exact w.newMat.new.new

theorem WF.step {s s' : Gen × H} {op : Op} (w : WF s.2) (e : Gen.step s op = .ok s') : WF s'.2 := by
  cases op with
  | partition a as => exact w.partition e
  | size p =>
    obtain ⟨_, _, rfl⟩ := map_ok_iff.1 e
    exact w
  | get p b => exact w.get e

theorem foldlM_cons_iff {σ ι : Type} (f : σ → ι → Except Err σ) (s : σ) (i : ι) (l : List ι) : (i :: l).foldlM f s = (f s i).bind fun s' => l.foldlM f s' := by
  rw [List.foldlM_cons]
  cases f s i <;> rfl

theorem WF.run {ops : List Op} : ∀ {s s' : Gen × H}, WF s.2 → ops.foldlM Gen.step s = .ok s' → WF s'.2 := by
  induction ops with
  | nil => intro s s' w e; cases e; exact w
  | cons op ops ih =>
    intro s s' w e
    rw [foldlM_cons_iff] at e
    obtain ⟨s1, e1, e2⟩ := bind_ok_iff.1 e
    exact ih (w.step e1) e2

/-- The partition can be deleted. -/
def Fine (n : Nat × Nat) (f : List Bool) : Prop := f ≠ [] ∧ (f.head? = some false → f.getLast? = some true → n.2 = 0)

/-- The rows of the partition that are not deleted. -/
def lostOf (n : Nat × Nat) (f : List Bool) : Nat := if f.head? = some true ∧ f.getLast? = some false then n.2 else 0

theorem cell_fine {c : PCell} {f : List Bool} (h : Rel c f) (hf : Fine c.size f) :
    ∃ l, c.deletes = .ok l ∧ ∃ lost : Multiset Nat, c.own = (l : Multiset Nat) + (c.idx : Multiset Nat) + lost ∧ lost.card = lostOf c.size f := by
  obtain ⟨h1, h2⟩ := h
  obtain ⟨g1, g2⟩ := hf
  cases hm : c.mat with
  | none => rw [hm] at h2; exact absurd h2 g1
  | some m =>
    rw [hm] at h2
    obtain ⟨a, ha, hl⟩ := h2
    obtain ⟨b, hb⟩ : ∃ b, f.getLast? = some b := by
      cases f with
      | nil => exact absurd rfl g1
      | cons x xs => exact ⟨_, List.getLast?_eq_some_getLast (by simp)⟩
    have hr : (if b then c.size.1 + c.size.2 else c.size.1) ≤ m.1.rows.length := by
      rw [hl]
      cases a with
      | true => cases b <;> simp
      | false =>
        cases b with
        | true => simp [g2 ha hb]
        | false => simp
    obtain ⟨l, e, _, lost, o1, o2⟩ := Mat.deletes_own hr
    refine ⟨l, ?_, lost, ?_, ?_⟩
    · unfold PCell.deletes
      rw [h1, hb]
      simp only [hm]
      exact e
    · unfold PCell.own PCell.idx
      simp only [hm]
      rw [o1]
      have : (([m.2.1, m.2.2] : List Nat) : Multiset Nat) = {m.2.1} + {m.2.2} := rfl
      rw [this]
      abel
    · rw [o2, hl]
      unfold lostOf
      rw [ha, hb]
      cases a with
      | true => cases b <;> simp
      | false =>
        cases b with
        | true => simp [g2 ha hb]
        | false => simp

theorem cell_bad {c : PCell} {f : List Bool} (h : Rel c f) (hf : ¬ Fine c.size f) : c.deletes = .error (if f = [] then .uninit else .outOfBounds) := by
  obtain ⟨h1, h2⟩ := h
  unfold PCell.deletes
  by_cases hn : f = []
  · subst hn
    rw [h1]
    rfl
  · have : f.head? = some false ∧ f.getLast? = some true ∧ c.size.2 ≠ 0 := by
      by_contra hh
      exact hf ⟨hn, fun a b => by
        by_contra hz
        exact hh ⟨a, b, hz⟩⟩
    obtain ⟨a, b, z⟩ := this
    rw [h1, b, if_neg hn]
    cases hm : c.mat with
    | none => rw [hm] at h2; exact absurd h2 hn
    | some m =>
      rw [hm] at h2
      obtain ⟨a', ha, hl⟩ := h2
      rw [a] at ha
      cases ha
      simp only
      refine Mat.deletes_err ?_
      rw [hl]
      have : c.size.2 ≠ 0 := z
      simp
      omega

theorem mapM_cons_except {α β : Type} (f : α → Except Err β) (a : α) (l : List α) : (a :: l).mapM f = (f a).bind fun b => (l.mapM f).map fun bs => b :: bs := by
  rw [List.mapM_cons]
  cases f a with
  | error e => rfl
  | ok b => cases l.mapM f <;> rfl

theorem cells_fine {cells : List PCell} {fs : List (List Bool)} (h : List.Forall₂ Rel cells fs) (hf : List.Forall₂ (fun c f => Fine (PCell.size c) f) cells fs) :
    ∃ ls, cells.mapM PCell.deletes = .ok ls ∧ ∃ lost : Multiset Nat, (cells.map PCell.own).sum = ((ls.flatten : List Nat) : Multiset Nat) + ((cells.flatMap PCell.idx : List Nat) : Multiset Nat) + lost ∧
      lost.card = ((cells.zip fs).map fun q => lostOf q.1.size q.2).sum := by
  induction h with
  | nil => exact ⟨[], rfl, 0, rfl, rfl⟩
  | @cons c f cells fs hr t ih =>
    obtain ⟨g1, g2⟩ := List.forall₂_cons.1 hf
    obtain ⟨l, e, lost, o1, o2⟩ := cell_fine hr g1
    obtain ⟨ls, es, losts, p1, p2⟩ := ih g2
    refine ⟨l :: ls, by rw [mapM_cons_except, e, es]; rfl, lost + losts, ?_, ?_⟩
    · rw [List.map_cons, List.sum_cons, o1, p1, List.flatten_cons, List.flatMap_cons, ← Multiset.coe_add, ← Multiset.coe_add]
      abel
    · rw [Multiset.card_add, o2, p2]
      simp

theorem cells_bad {cells : List PCell} {fs : List (List Bool)} (h : List.Forall₂ Rel cells fs) (hf : ¬ List.Forall₂ (fun c f => Fine (PCell.size c) f) cells fs) :
    ∃ e, cells.mapM PCell.deletes = .error e ∧ (e = .uninit ∨ e = .outOfBounds) := by
  induction h with
  | nil => exact absurd .nil hf
  | @cons c f cells fs hr t ih =>
    rw [mapM_cons_except]
    by_cases g : Fine c.size f
    · obtain ⟨e, he, ho⟩ := ih fun h => hf (.cons g h)
      obtain ⟨l, el, _⟩ := cell_fine hr g
      exact ⟨e, by rw [el, he]; rfl, ho⟩
    · refine ⟨_, by rw [cell_bad hr g]; rfl, ?_⟩
      by_cases hn : f = []
      · rw [if_pos hn]; exact .inl rfl
      · rw [if_neg hn]; exact .inr rfl

theorem delete_fine {nR nC : Nat} {base : Multiset Nat} {ns : List (Nat × Nat)} {fs : List (List Bool)} {s : Gen × H} {t : Parts} (h : Inv nR nC base ns fs s t)
    (hf : List.Forall₂ (fun c f => Fine (PCell.size c) f) t.cells fs) :
    ∃ l lost, s.1.deletes = .ok l ∧ s.1.own = (l : Multiset Nat) + lost ∧ lost.card = ((t.cells.zip fs).map fun q => lostOf q.1.size q.2).sum := by
  obtain ⟨ls, es, lost, o1, o2⟩ := cells_fine h.rel hf
  obtain ⟨cl, ce, _, co⟩ := Mat.deletes_all (h.rows.trans h.nr.symm)
  have hd : s.1.deletes = .ok (cl ++ (ls.flatten ++ [t.cm] ++ t.cells.flatMap PCell.idx ++ [t.cr, t.cc, t.ci, t.cj, t.ce])) := by
    unfold Gen.deletes
    rw [ce]
    show (match s.1.part with | none => Except.ok cl | some s => _) = _
    rw [h.part]
    simp only [es]
    rfl
  refine ⟨_, lost, hd, ?_, o2⟩
  unfold Gen.own
  rw [h.part]
  simp only [Parts.own, o1, ← co, ← Multiset.coe_add]
  have : (([t.cr, t.cc, t.ci, t.cj, t.ce] : List Nat) : Multiset Nat) = {t.cr} + {t.cc} + {t.ci} + {t.cj} + {t.ce} := rfl
  rw [this, Multiset.coe_singleton]
  abel

theorem delete_bad {nR nC : Nat} {base : Multiset Nat} {ns : List (Nat × Nat)} {fs : List (List Bool)} {s : Gen × H} {t : Parts} (h : Inv nR nC base ns fs s t)
    (hf : ¬ List.Forall₂ (fun c f => Fine (PCell.size c) f) t.cells fs) : ∃ e, s.1.deletes = .error e ∧ (e = .uninit ∨ e = .outOfBounds) := by
  obtain ⟨e, es, ho⟩ := cells_bad h.rel hf
  obtain ⟨cl, ce, _, co⟩ := Mat.deletes_all (h.rows.trans h.nr.symm)
  refine ⟨e, ?_, ho⟩
  unfold Gen.deletes
  rw [ce]
  show (match s.1.part with | none => Except.ok cl | some s => _) = _
  rw [h.part]
  simp only [es]
  rfl

theorem delete_none {nR nC : Nat} {base : Multiset Nat} {s : Gen × H} (h : Inv0 nR nC base s) : ∃ l, s.1.deletes = .ok l ∧ s.1.own = (l : Multiset Nat) := by
  obtain ⟨cl, ce, _, co⟩ := Mat.deletes_all (h.rows.trans h.nr.symm)
  refine ⟨cl, ?_, ?_⟩
  · unfold Gen.deletes
    rw [ce]
    show (match s.1.part with | none => Except.ok cl | some s => _) = _
    rw [h.part]
  · unfold Gen.own
    rw [h.part]
    simp [co]

theorem deletes_ne {o : Gen} {l : List Nat} (e : o.deletes = .ok l) : l ≠ [] := by
  unfold Gen.deletes at e
  obtain ⟨c, e1, e2⟩ := bind_ok_iff.1 e
  have hc : c ≠ [] := by
    unfold Mat.deletes at e1
    split at e1
    · cases e1; simp
    · cases e1
  split at e2
  · cases e2; exact hc
  · obtain ⟨m, _, rfl⟩ := map_ok_iff.1 e2
    simp

end Heap
end RFS
