import Verif.Lemmas.Partition
import Mathlib.Tactic.FinCases
import Mathlib.Tactic.NormNum
import Mathlib.Tactic.Linarith
import Mathlib.Algebra.Order.Ring.Rat

/-!
Properties C11, C12 and C66: `CostMatrixGeneral::partition`, `getPartition`, `getPartitionSize`.

Everything is stated for every numbering of the connected components that the library call may return (`IsComponents`;
`components_exist` shows that there is one for every matrix).

The specification: an entry *counts* when it is above the threshold; a row or column is *empty* when no entry in it
counts; two rows or columns are *linked* when a chain of counting entries leads from one to the other.
-/

namespace RFS
set_option linter.unusedSectionVars false

namespace PartitionProps
open Partition

variable {K : Type*} [LinearOrder K] {nR nC : Nat}

/-- Specification: no entry of the row counts. -/
def EmptyRow (C : Fin nR → Fin nC → K) (thr : K) (i : Fin nR) : Prop := ∀ j, C i j ≤ thr

/-- Specification: no entry of the column counts. -/
def EmptyCol (C : Fin nR → Fin nC → K) (thr : K) (j : Fin nC) : Prop := ∀ i, C i j ≤ thr

/-- Specification: two columns or rows linked by a chain of counting entries (rows are `.inl`, columns `.inr`). -/
inductive Linked (C : Fin nR → Fin nC → K) (thr : K) : Fin nR ⊕ Fin nC → Fin nR ⊕ Fin nC → Prop where
  | refl (v) : Linked C thr v v
  | col (i j v) (h : thr < C i j) (t : Linked C thr (.inr j) v) : Linked C thr (.inl i) v
  | row (i j v) (h : thr < C i j) (t : Linked C thr (.inl i) v) : Linked C thr (.inr j) v

theorem linked_trans {C : Fin nR → Fin nC → K} {thr : K} {u v w} (h : Linked C thr u v) : Linked C thr v w → Linked C thr u w := by
  induction h with
  | refl => exact id
  | col i j v h _ ih => exact fun t => .col i j _ h (ih t)
  | row i j v h _ ih => exact fun t => .row i j _ h (ih t)

theorem linked_symm {C : Fin nR → Fin nC → K} {thr : K} {u v} (h : Linked C thr u v) : Linked C thr v u := by
  induction h with
  | refl => exact .refl _
  | col i j v h _ ih => exact linked_trans ih (.row i j _ h (.refl _))
  | row i j v h _ ih => exact linked_trans ih (.col i j _ h (.refl _))

theorem linked_iff_conn (C : Fin nR → Fin nC → K) (thr : K) (u v) : Linked C thr u v ↔ Conn C thr u v := by
  constructor
  · intro h
    induction h with
    | refl v => exact Relation.EqvGen.refl v
    | col i j v h _ ih => exact Relation.EqvGen.trans _ _ _ (Relation.EqvGen.rel _ _ (.mk i j h)) ih
    | row i j v h _ ih => exact Relation.EqvGen.trans _ _ _ (Relation.EqvGen.symm _ _ (Relation.EqvGen.rel _ _ (.mk i j h))) ih
  · intro h
    induction h with
    | rel u v h => cases h with | mk i j h => exact .col i j _ h (.refl _)
    | refl => exact .refl _
    | symm _ _ _ ih => exact linked_symm ih
    | trans _ _ _ _ _ ih1 ih2 => exact linked_trans ih1 ih2

variable {C : Fin nR → Fin nC → K} {thr : K} {ncc : Nat} {lab : Fin nR ⊕ Fin nC → Nat}

theorem emptyRow_of_mem (hc : IsComponents C thr ncc lab) {x : Nat} (hz : ZeroLab lab x) {i : Fin nR} (hi : i ∈ R lab x) :
    EmptyRow C thr i := by
  rcases hz with h | h
  · rw [h] at hi; cases hi
  · exact isolated_of_no_cols hc h (mem_R.1 hi)

theorem emptyCol_of_mem (hc : IsComponents C thr ncc lab) {x : Nat} (hz : ZeroLab lab x) {j : Fin nC} (hj : j ∈ L lab x) :
    EmptyCol C thr j := by
  rcases hz with h | h
  · exact isolated_of_no_rows hc h (mem_L.1 hj)
  · rw [h] at hj; cases hj

theorem zeroLab_of_emptyRow (hc : IsComponents C thr ncc lab) {i : Fin nR} (hi : EmptyRow C thr i) :
    ZeroLab lab (lab (.inl i)) := by
  right
  rw [List.eq_nil_iff_forall_not_mem]
  intro j hj
  have h1 := (hc.conn (.inl i) (.inr j)).1 (mem_L.1 hj).symm
  have := (conn_isolated h1).1 hi
  cases this

theorem zeroLab_of_emptyCol (hc : IsComponents C thr ncc lab) {j : Fin nC} (hj : EmptyCol C thr j) :
    ZeroLab lab (lab (.inr j)) := by
  left
  rw [List.eq_nil_iff_forall_not_mem]
  intro i hi
  have h1 := (hc.conn (.inl i) (.inr j)).1 (mem_R.1 hi)
  have := (conn_isolated h1).2 hj
  cases this

/-- Everything the property theorems need about the outcome. -/
theorem outcome (hc : IsComponents C thr ncc lab) : ∃ (o : Obj nR nC) (Z : List Nat) (l : Nat → Nat), partition ncc lab none = some o ∧
    (∀ p, o.alloc p = none) ∧
    (∀ z, o.zero = some z → z < o.nP ∧ Z ≠ [] ∧ o.I z = Z.flatMap (R lab) ∧ o.J z = Z.flatMap (L lab)) ∧
    (o.zero = none → Z = []) ∧
    (∀ p < o.nP, o.zero ≠ some p → o.I p = R lab (l p) ∧ o.J p = L lab (l p) ∧ l p ∉ Z ∧ o.I p ≠ [] ∧ o.J p ≠ []) ∧
    (∀ p < o.nP, ∀ q < o.nP, o.zero ≠ some p → o.zero ≠ some q → l p = l q → p = q) ∧
    (∀ x < ncc, x ∈ Z ∨ ∃ p < o.nP, o.zero ≠ some p ∧ l p = x) ∧ (∀ x ∈ Z, ZeroLab lab x) ∧ Z.Nodup ∧ (∀ x ∈ Z, x < ncc) := by
  obtain ⟨o, Z, l, h1, ⟨m, h2, h3⟩, h4⟩ := partition_spec hc
  refine ⟨o, Z, l, h1, h4, ?_, ?_, ?_, ?_, ?_, fun x hx => (h3.zl x hx).1, h3.znd, fun x hx => (h3.zl x hx).2⟩
  · intro z hz
    rw [h2]; exact h3.z1 z hz
  · intro hz; exact (h3.z0 hz).1
  · intro p hp hz
    rw [h2] at hp
    obtain ⟨t1, t2, t3, -⟩ := h3.slot p hp hz
    obtain ⟨t5, t6⟩ := h3.done p hp hz
    exact ⟨t1, t2, t3, t5, t6⟩
  · rw [h2]; exact h3.inj
  · rw [h2]; exact h3.cover

theorem flatMap_nodup {α : Type*} {Z : List Nat} (hZ : Z.Nodup) (f : Nat → List α) (hf : ∀ x, (f x).Nodup)
    (hd : ∀ a x y, a ∈ f x → a ∈ f y → x = y) : (Z.flatMap f).Nodup := by
  rw [List.nodup_flatMap]
  refine ⟨fun x _ => hf x, hZ.imp ?_⟩
  intro x y hne a ha hb
  exact hne (hd a x y ha hb)

/-- **C11**: the partitions split the rows and the columns, and no counting entry crosses two partitions. -/
theorem C11_block_decomposition (hc : IsComponents C thr ncc lab) : ∃ o, partition ncc lab none = some o ∧
    (∀ i, ∃! p, p < o.nP ∧ i ∈ o.I p) ∧ (∀ j, ∃! p, p < o.nP ∧ j ∈ o.J p) ∧
    (∀ p < o.nP, (o.I p).Nodup ∧ (o.J p).Nodup) ∧
    (∀ p < o.nP, ∀ q < o.nP, p ≠ q → ∀ i ∈ o.I p, ∀ j ∈ o.J q, C i j ≤ thr) := by
  obtain ⟨o, Z, l, h1, h2, hz, hz0, hslot, hinj, hcov, hzl, hnd, hZlt⟩ := outcome hc
  have hZn : Z ≠ [] → ∃ z, o.zero = some z := fun h => by
    cases e : o.zero with
    | none => exact absurd (hz0 e) h
    | some z => exact ⟨z, rfl⟩
  have memR : ∀ i p, p < o.nP → (i ∈ o.I p ↔ (if o.zero = some p then lab (.inl i) ∈ Z else lab (.inl i) = l p)) := by
    intro i p hp
    by_cases e : o.zero = some p
    · rw [if_pos e, (hz p e).2.2.1, List.mem_flatMap]
      constructor
      · rintro ⟨x, hx, hi⟩; rw [mem_R.1 hi]; exact hx
      · intro h; exact ⟨_, h, mem_R.2 rfl⟩
    · rw [if_neg e, (hslot p hp e).1, mem_R]
  have memL : ∀ j p, p < o.nP → (j ∈ o.J p ↔ (if o.zero = some p then lab (.inr j) ∈ Z else lab (.inr j) = l p)) := by
    intro i p hp
    by_cases e : o.zero = some p
    · rw [if_pos e, (hz p e).2.2.2, List.mem_flatMap]
      constructor
      · rintro ⟨x, hx, hi⟩; rw [mem_L.1 hi]; exact hx
      · intro h; exact ⟨_, h, mem_L.2 rfl⟩
    · rw [if_neg e, (hslot p hp e).2.1, mem_L]
  -- a label sits in exactly one slot
  have huniq : ∀ x < ncc, ∃! p, p < o.nP ∧ (if o.zero = some p then x ∈ Z else x = l p) := by
    intro x hx
    by_cases hxZ : x ∈ Z
    · obtain ⟨z, e⟩ := hZn (List.ne_nil_of_mem hxZ)
      refine ⟨z, ⟨(hz z e).1, by rw [if_pos e]; exact hxZ⟩, ?_⟩
      rintro q ⟨hq1, hq2⟩
      by_contra hne
      have hq : o.zero ≠ some q := by rw [e]; exact fun h => hne (Option.some.inj h).symm
      rw [if_neg hq] at hq2
      exact (hslot q hq1 hq).2.2.1 (hq2 ▸ hxZ)
    · obtain ⟨p, hp, hpz, hl⟩ := (hcov x hx).resolve_left hxZ
      refine ⟨p, ⟨hp, by rw [if_neg hpz]; exact hl.symm⟩, ?_⟩
      rintro q ⟨hq1, hq2⟩
      by_cases hq : o.zero = some q
      · rw [if_pos hq] at hq2; exact absurd hq2 hxZ
      · rw [if_neg hq] at hq2
        exact hinj q hq1 p hp hq hpz (hq2.symm.trans hl.symm)
  refine ⟨o, h1, ?_, ?_, ?_, ?_⟩
  · intro i
    obtain ⟨p, ⟨hp1, hp2⟩, hu⟩ := huniq _ (hc.lt (.inl i))
    refine ⟨p, ⟨hp1, (memR i p hp1).2 hp2⟩, ?_⟩
    rintro q ⟨hq1, hq2⟩
    exact hu q ⟨hq1, (memR i q hq1).1 hq2⟩
  · intro i
    obtain ⟨p, ⟨hp1, hp2⟩, hu⟩ := huniq _ (hc.lt (.inr i))
    refine ⟨p, ⟨hp1, (memL i p hp1).2 hp2⟩, ?_⟩
    rintro q ⟨hq1, hq2⟩
    exact hu q ⟨hq1, (memL i q hq1).1 hq2⟩
  · intro p hp
    by_cases e : o.zero = some p
    · obtain ⟨-, -, e1, e2⟩ := hz p e
      rw [e1, e2]
      exact ⟨flatMap_nodup hnd _ nodup_R (fun a x y ha hb => (mem_R.1 ha).symm.trans (mem_R.1 hb)),
        flatMap_nodup hnd _ nodup_L (fun a x y ha hb => (mem_L.1 ha).symm.trans (mem_L.1 hb))⟩
    · obtain ⟨e1, e2, -⟩ := hslot p hp e
      rw [e1, e2]
      exact ⟨nodup_R _, nodup_L _⟩
  · intro p hp q hq hne i hi j hj
    by_contra hcon
    rw [not_le] at hcon
    have hlab := (hc.conn (.inl i) (.inr j)).2 (Relation.EqvGen.rel _ _ (.mk i j hcon))
    rw [memR i p hp] at hi
    rw [memL j q hq, ← hlab] at hj
    obtain ⟨s, -, hu⟩ := huniq _ (hc.lt (.inl i))
    exact hne ((hu p ⟨hp, hi⟩).trans (hu q ⟨hq, hj⟩).symm)

/-- **C12**: `getPartition` and `getPartitionSize` return `false` for exactly one partition if there are empty rows or
columns and for none otherwise; that partition holds exactly the empty rows and columns; every other partition has a
row and a column and is linked; the block handed out holds the entries at the listed indices. -/
theorem C12_zero_partition (hc : IsComponents C thr ncc lab) : ∃ o, partition ncc lab none = some o ∧
    (∀ p < o.nP, (getPartition C o p false).1.flag = false →
      (∀ i, i ∈ (getPartition C o p false).1.rows ↔ EmptyRow C thr i) ∧
      (∀ j, j ∈ (getPartition C o p false).1.cols ↔ EmptyCol C thr j)) ∧
    (∀ p < o.nP, ∀ q < o.nP, (getPartition C o p false).1.flag = false → (getPartition C o q false).1.flag = false → p = q) ∧
    (((∃ i, EmptyRow C thr i) ∨ ∃ j, EmptyCol C thr j) ↔ ∃ p < o.nP, (getPartition C o p false).1.flag = false) ∧
    (∀ p < o.nP, (getPartition C o p false).1.flag = true →
      (getPartition C o p false).1.rows ≠ [] ∧ (getPartition C o p false).1.cols ≠ [] ∧
      (∀ i ∈ (getPartition C o p false).1.rows, ∀ i' ∈ (getPartition C o p false).1.rows, Linked C thr (.inl i) (.inl i')) ∧
      (∀ i ∈ (getPartition C o p false).1.rows, ∀ j ∈ (getPartition C o p false).1.cols, Linked C thr (.inl i) (.inr j)) ∧
      (∀ j ∈ (getPartition C o p false).1.cols, ∀ j' ∈ (getPartition C o p false).1.cols, Linked C thr (.inr j) (.inr j'))) ∧
    (∀ p ext, (getPartition C o p ext).1.rows = o.I p ∧ (getPartition C o p ext).1.cols = o.J p ∧
      (∀ a b, (getPartition C o p ext).1.mat a b =
        C ((getPartition C o p ext).1.rows.get a) ((getPartition C o p ext).1.cols.get b)) ∧
      getPartitionSize o p = ((getPartition C o p ext).1.flag, (getPartition C o p ext).1.rows.length,
        (getPartition C o p ext).1.cols.length)) := by
  obtain ⟨o, Z, l, h1, h2, hz, hz0, hslot, hinj, hcov, hzl, hnd, hZlt⟩ := outcome hc
  have hflag : ∀ p, (getPartition C o p false).1.flag = false ↔ o.zero = some p := by
    intro p; simp [getPartition]
  have hflag' : ∀ p, (getPartition C o p false).1.flag = true ↔ o.zero ≠ some p := by
    intro p; simp [getPartition]
  have hlinked : ∀ p < o.nP, o.zero ≠ some p → ∀ u v, lab u = l p → lab v = l p → Linked C thr u v := by
    intro p _ _ u v hu hv
    rw [linked_iff_conn]
    exact (hc.conn u v).1 (hu.trans hv.symm)
  -- labels of empty rows and columns are combined
  have hzero_lab : ∀ x < ncc, ZeroLab lab x → x ∈ Z := by
    intro x hx hzx
    rcases hcov x hx with h | ⟨p, hp, hpz, hl⟩
    · exact h
    · exfalso
      obtain ⟨e1, e2, -, e3, e4⟩ := hslot p hp hpz
      rw [hl] at e1 e2
      rcases hzx with h | h
      · exact e3 (e1.trans h)
      · exact e4 (e2.trans h)
  refine ⟨o, h1, ?_, ?_, ?_, ?_, ?_⟩
  · intro p hp hf
    rw [hflag] at hf
    obtain ⟨-, -, e1, e2⟩ := hz p hf
    constructor
    · intro i
      show i ∈ o.I p ↔ _
      rw [e1, List.mem_flatMap]
      constructor
      · rintro ⟨x, hx, hi⟩; exact emptyRow_of_mem hc (hzl x hx) hi
      · intro h
        exact ⟨_, hzero_lab _ (hc.lt _) (zeroLab_of_emptyRow hc h), mem_R.2 rfl⟩
    · intro j
      show j ∈ o.J p ↔ _
      rw [e2, List.mem_flatMap]
      constructor
      · rintro ⟨x, hx, hi⟩; exact emptyCol_of_mem hc (hzl x hx) hi
      · intro h
        exact ⟨_, hzero_lab _ (hc.lt _) (zeroLab_of_emptyCol hc h), mem_L.2 rfl⟩
  · intro p _ q _ hp hq
    rw [hflag] at hp hq
    rw [hp] at hq
    exact Option.some.inj hq
  · constructor
    · intro h
      have hZ : Z ≠ [] := by
        rcases h with ⟨i, hi⟩ | ⟨j, hj⟩
        · exact List.ne_nil_of_mem (hzero_lab _ (hc.lt _) (zeroLab_of_emptyRow hc hi))
        · exact List.ne_nil_of_mem (hzero_lab _ (hc.lt _) (zeroLab_of_emptyCol hc hj))
      cases e : o.zero with
      | none => exact absurd (hz0 e) hZ
      | some z => exact ⟨z, (hz z e).1, (hflag z).2 e⟩
    · rintro ⟨p, -, hf⟩
      rw [hflag] at hf
      obtain ⟨-, hZ, e1, e2⟩ := hz p hf
      obtain ⟨x, hx⟩ := List.exists_mem_of_ne_nil Z hZ
      have hxn : x < ncc := hZlt x hx
      obtain ⟨v, hv⟩ := hc.onto x hxn
      cases v with
      | inl i => exact Or.inl ⟨i, emptyRow_of_mem hc (hzl x hx) (mem_R.2 hv)⟩
      | inr j => exact Or.inr ⟨j, emptyCol_of_mem hc (hzl x hx) (mem_L.2 hv)⟩
  · intro p hp hf
    rw [hflag'] at hf
    obtain ⟨e1, e2, -, e3, e4⟩ := hslot p hp hf
    refine ⟨e3, e4, ?_, ?_, ?_⟩
    · intro i hi i' hi'
      change i ∈ o.I p at hi
      change i' ∈ o.I p at hi'
      rw [e1] at hi hi'
      exact hlinked p hp hf _ _ (mem_R.1 hi) (mem_R.1 hi')
    · intro i hi j hj
      change i ∈ o.I p at hi
      change j ∈ o.J p at hj
      rw [e1] at hi; rw [e2] at hj
      exact hlinked p hp hf _ _ (mem_R.1 hi) (mem_L.1 hj)
    · intro j hj j' hj'
      change j ∈ o.J p at hj
      change j' ∈ o.J p at hj'
      rw [e2] at hj hj'
      exact hlinked p hp hf _ _ (mem_L.1 hj) (mem_L.1 hj')
  · intro p ext
    exact ⟨rfl, rfl, fun _ _ => rfl, rfl⟩

/-- Repeated calls: `partition()` on an object that has been partitioned changes nothing. -/
theorem C11_repeat (o : Obj nR nC) : partition ncc lab (some o) = some o := rfl

/-- **C66**, the part that holds: the first `getPartition` for a partition hands out a block with the room asked for. The
missing part (every later call too) is false in the code, see `C66_extended_room_not_honoured`. -/
theorem C66_first_room_partial (C : Fin nR → Fin nC → K) (o : Obj nR nC) (p : Nat) (h : o.alloc p = none) (ext : Bool) :
    (getPartition C o p ext).1.room = if ext then ((o.I p).length + (o.J p).length, (o.I p).length + (o.J p).length)
      else ((o.I p).length, (o.J p).length) := by
  simp [getPartition, h]

/-- A 2x2 matrix with one block and the labels the library returns for it. -/
def ones : Fin 2 → Fin 2 → ℚ := fun _ _ => 1

theorem ones_components : IsComponents ones 0 1 (fun _ => 0) := by
  refine ⟨fun _ => by norm_num, fun x hx => ⟨.inl 0, by omega⟩, fun u v => ⟨fun _ => ?_, fun _ => rfl⟩⟩
  rw [← linked_iff_conn]
  have h : ∀ i j, (0 : ℚ) < ones i j := fun _ _ => by norm_num [ones]
  rcases u with i | j <;> rcases v with i' | j'
  · exact .col i 0 _ (h _ _) (.row i' 0 _ (h _ _) (.refl _))
  · exact .col i j' _ (h _ _) (.refl _)
  · exact .row i' j _ (h _ _) (.refl _)
  · exact .row 0 j _ (h _ _) (.col 0 j' _ (h _ _) (.refl _))

/-- **C66** is violated: after a plain `getPartition` the request for an extended matrix gets the small block. -/
theorem C66_extended_room_not_honoured : ∃ o, partition 1 (fun _ : Fin 2 ⊕ Fin 2 => 0) none = some o ∧
    (getPartition ones (getPartition ones o 0 false).2 0 true).1.room = (2, 2) ∧
    (getPartition ones o 0 true).1.room = (4, 4) := by
  have h : (match partition 1 (fun _ : Fin 2 ⊕ Fin 2 => 0) none with
    | some o => decide ((getPartition ones (getPartition ones o 0 false).2 0 true).1.room = (2, 2) ∧
        (getPartition ones o 0 true).1.room = (4, 4))
    | none => false) = true := by decide +kernel
  split at h
  · rename_i o ho
    exact ⟨o, ho, by simpa using h⟩
  · cases h

/-- Non-vacuity: three rows, three columns, one block, a lonely row and a lonely column merged into the zero partition. -/
example : (match partition 4 (fun v : Fin 3 ⊕ Fin 3 => match v with
      | .inl 0 => 0 | .inl 1 => 1 | .inl 2 => 2 | .inr 0 => 0 | .inr 1 => 3 | .inr 2 => 2) none with
    | some o => decide (o.nP = 3 ∧ o.zero = some 1 ∧ o.I 0 = [0] ∧ o.J 0 = [0] ∧ o.I 1 = [1] ∧ o.J 1 = [1] ∧
        o.I 2 = [2] ∧ o.J 2 = [2])
    | none => false) = true := by decide +kernel

end PartitionProps
end RFS
