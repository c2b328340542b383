import Verif.Lemmas.HeapRuns
import Verif.Model.CostMatrixReduce
import Mathlib.Algebra.Order.Ring.Rat
import Mathlib.Tactic.Ring

/-!
Properties of memory management (`Verif.Model.Heap`): which blocks the assignment classes, the FastSLAM update and the optimisers free, and which they lose or free twice.
-/

set_option linter.unusedSectionVars false

namespace RFS
namespace HeapProps
open Heap

/-- Heaps of a running program: no block is listed twice, new blocks get new numbers. -/
def Sound (h : H) : Prop := h.live.Nodup ∧ ∀ p ∈ h.live, p < h.next

/-- `h'` is `h` with `k` more blocks allocated, all blocks of `h` are still there. -/
def Leaves (h h' : H) (k : Nat) : Prop := ∃ lost : Multiset Nat, h'.live = lost + h.live ∧ lost.card = k

theorem fold_iff {σ α : Type} {f : σ → α → Except Err σ} {s s' : σ} {i : α} {l : List α} : (i :: l).foldlM f s = .ok s' ↔ ∃ s1, f s i = .ok s1 ∧ l.foldlM f s1 = .ok s' := by
  rw [foldlM_cons_iff]
  exact bind_ok_iff

/-! ### C215 -/

/-- The sizes of the partitions: the result of the first call of `partition()`. -/
def sizes : List Op → Option (List (Nat × Nat))
  | [] => none
  | .partition a as :: _ => some (a :: as)
  | .size _ :: t => sizes t
  | .get _ _ :: t => sizes t

/-- The calls before the first `partition()`. -/
def earlier : List Op → List Op
  | [] => []
  | .partition _ _ :: _ => []
  | .size p :: t => .size p :: earlier t
  | .get p e :: t => .get p e :: earlier t

/-- The calls after it. -/
def later : List Op → List Op
  | [] => []
  | .partition _ _ :: t => t
  | .size _ :: t => later t
  | .get _ _ :: t => later t

/-- The values of `allocateExtendedMatrix` with which partition `p` was fetched. -/
def flags (p : Nat) (ops : List Op) : List Bool := ops.filterMap fun o => match o with
  | .get q e => if q = p then some e else none
  | _ => none

/-- The calls respect the interface: no size is asked for before there are partitions, partition numbers are in range, the matrix is not empty if it is partitioned. -/
def Legal (nR nC : Nat) (ops : List Op) : Prop :=
  (∀ p, Op.size p ∉ earlier ops) ∧ ∀ l, sizes ops = some l → nR + nC ≠ 0 ∧ ∀ p, (Op.size p ∈ later ops ∨ ∃ e, Op.get p e ∈ later ops) → p < l.length

/-- Every partition is fetched, and none is fetched without room for the extension first and with room at last. -/
def Fetched (ops : List Op) : Prop :=
  ∀ l, sizes ops = some l → ∀ (p : Nat) n, l[p]? = some n → flags p (later ops) ≠ [] ∧ ((flags p (later ops)).head? = some false → (flags p (later ops)).getLast? = some true → n.2 = 0)

/-- For every partition that was fetched with room first and without at last: its number of columns. -/
def rest (ops : List Op) : Nat := match sizes ops with
  | none => 0
  | some l => (l.mapIdx fun p n => if (flags p (later ops)).head? = some true ∧ (flags p (later ops)).getLast? = some false then n.2 else 0).sum

theorem flags_nil (p : Nat) : flags p [] = [] := rfl

theorem mapIdx_flags_nil (fs : List (List Bool)) : (fs.mapIdx fun p f => f ++ flags p []) = fs := by
  refine List.ext_getElem? fun i => ?_
  rw [List.getElem?_mapIdx]
  cases fs[i]? <;> simp [flags_nil]

theorem ph_some (nR nC : Nat) (ops : List Op) : ∀ (ns : List (Nat × Nat)) (fs : List (List Bool)) (ph : Ph), ns.length = fs.length →
    (ops.foldlM (phStep nR nC) (some (ns, fs)) = some ph ↔
      (∀ p, (Op.size p ∈ ops ∨ ∃ e, Op.get p e ∈ ops) → p < ns.length) ∧ ph = some (ns, fs.mapIdx fun p f => f ++ flags p ops)) := by
  induction ops with
  | nil =>
    intro ns fs ph hl
    simp only [List.foldlM_nil]
    constructor
    · intro h
      cases h
      exact ⟨fun p h => by simp at h, by rw [mapIdx_flags_nil]⟩
    · rintro ⟨_, rfl⟩
      rw [mapIdx_flags_nil]
      rfl
  | cons op ops ih =>
    intro ns fs ph hl
    rw [ofoldlM_cons]
    cases op with
    | partition a as =>
      show ops.foldlM (phStep nR nC) (some (ns, fs)) = some ph ↔ _
      rw [ih ns fs ph hl]
      simp [flags]
    | size q =>
      rw [show phStep nR nC (some (ns, fs)) (.size q) = if q < ns.length then some (some (ns, fs)) else none from rfl]
      by_cases hq : q < ns.length
      · rw [if_pos hq]
        show ops.foldlM (phStep nR nC) (some (ns, fs)) = some ph ↔ _
        rw [ih ns fs ph hl]
        constructor
        · rintro ⟨a, rfl⟩
          refine ⟨?_, by simp [flags]⟩
          rintro p (h | ⟨e, h⟩)
          · rcases List.mem_cons.1 h with h | h
            · cases h; exact hq
            · exact a p (.inl h)
          · exact a p (.inr ⟨e, by simpa using h⟩)
        · rintro ⟨a, rfl⟩
          refine ⟨?_, by simp [flags]⟩
          rintro p (h | ⟨e, h⟩)
          · exact a p (.inl (List.mem_cons_of_mem _ h))
          · exact a p (.inr ⟨e, List.mem_cons_of_mem _ h⟩)
      · rw [if_neg hq]
        constructor
        · intro h; cases h
        · rintro ⟨a, _⟩
          exact absurd (a q (.inl (by simp))) hq
    | get q b =>
      rw [show phStep nR nC (some (ns, fs)) (.get q b) = if q < ns.length then some (some (ns, fs.modify q (· ++ [b]))) else none from rfl]
      by_cases hq : q < ns.length
      · rw [if_pos hq]
        show ops.foldlM (phStep nR nC) (some (ns, fs.modify q (· ++ [b]))) = some ph ↔ _
        rw [ih ns _ ph (by simpa using hl)]
        have hm : ((fs.modify q (· ++ [b])).mapIdx fun p f => f ++ flags p ops) = fs.mapIdx fun p f => f ++ flags p (.get q b :: ops) := by
          refine List.ext_getElem? fun i => ?_
          rw [List.getElem?_mapIdx, List.getElem?_mapIdx, List.getElem?_modify]
          cases fs[i]? with
          | none => rfl
          | some f =>
            by_cases hi : q = i
            · subst hi
              simp [flags]
            · simp [flags, hi]
        rw [hm]
        constructor
        · rintro ⟨a, rfl⟩
          refine ⟨?_, rfl⟩
          rintro p (h | ⟨e, h⟩)
          · exact a p (.inl (by simpa using h))
          · rcases List.mem_cons.1 h with h | h
            · cases h; exact hq
            · exact a p (.inr ⟨e, h⟩)
        · rintro ⟨a, rfl⟩
          refine ⟨?_, rfl⟩
          rintro p (h | ⟨e, h⟩)
          · exact a p (.inl (List.mem_cons_of_mem _ h))
          · exact a p (.inr ⟨e, List.mem_cons_of_mem _ h⟩)
      · rw [if_neg hq]
        constructor
        · intro h; cases h
        · rintro ⟨a, _⟩
          exact absurd (a q (.inr ⟨b, by simp⟩)) hq

/-- What the calls do, in terms of the specification. -/
theorem ph_none (nR nC : Nat) (ops : List Op) : ∀ ph : Ph, ops.foldlM (phStep nR nC) none = some ph ↔
    Legal nR nC ops ∧ ph = (sizes ops).map fun l => (l, l.mapIdx fun p _ => flags p (later ops)) := by
  induction ops with
  | nil =>
    intro ph
    simp only [List.foldlM_nil]
    constructor
    · intro h
      cases h
      exact ⟨⟨fun p h => by simp [earlier] at h, fun l h => by simp [sizes] at h⟩, rfl⟩
    · rintro ⟨_, rfl⟩
      rfl
  | cons op ops ih =>
    intro ph
    rw [ofoldlM_cons]
    cases op with
    | partition a as =>
      rw [show phStep nR nC none (.partition a as) = if nR + nC = 0 then none else some (some (a :: as, (a :: as).map fun _ => [])) from rfl]
      by_cases hn : nR + nC = 0
      · rw [if_pos hn]
        constructor
        · intro h; cases h
        · rintro ⟨⟨_, h⟩, _⟩
          exact absurd hn (h _ rfl).1
      · rw [if_neg hn]
        show ops.foldlM (phStep nR nC) (some (a :: as, (a :: as).map fun _ => [])) = some ph ↔ _
        rw [ph_some nR nC ops (a :: as) _ ph (by simp)]
        have hm : (((a :: as).map fun _ => ([] : List Bool)).mapIdx fun p f => f ++ flags p ops) = (a :: as).mapIdx fun p _ => flags p ops := by
          refine List.ext_getElem? fun i => ?_
          rw [List.getElem?_mapIdx, List.getElem?_mapIdx, List.getElem?_map]
          cases (a :: as)[i]? <;> simp
        rw [hm]
        constructor
        · rintro ⟨h, rfl⟩
          refine ⟨⟨fun p h => by simp [earlier] at h, ?_⟩, rfl⟩
          intro l hl
          cases hl
          exact ⟨hn, h⟩
        · rintro ⟨⟨_, h⟩, rfl⟩
          exact ⟨(h _ rfl).2, rfl⟩
    | size q =>
      constructor
      · intro h; cases h
      · rintro ⟨⟨h, _⟩, _⟩
        exact absurd (by simp [earlier]) (h q)
    | get q b =>
      show ops.foldlM (phStep nR nC) none = some ph ↔ _
      rw [ih ph]
      constructor
      · rintro ⟨⟨a, b⟩, rfl⟩
        exact ⟨⟨fun p h => a p (by simpa [earlier] using h), b⟩, rfl⟩
      · rintro ⟨⟨a, b⟩, rfl⟩
        exact ⟨⟨fun p h => a p (by simp [earlier, h]), b⟩, rfl⟩

theorem fine_fetched (ops : List Op) : PhFine ((sizes ops).map fun l => (l, l.mapIdx fun p _ => flags p (later ops))) ↔ Fetched ops := by
  unfold Fetched
  cases sizes ops with
  | none =>
    refine ⟨fun _ l h => ?_, fun _ => trivial⟩
    cases h
  | some l =>
    show (∀ (p : Nat) n f, l[p]? = some n → (l.mapIdx fun p _ => flags p (later ops))[p]? = some f → Fine n f) ↔ _
    constructor
    · intro h l' hl p n hn
      cases hl
      exact h p n _ hn (by rw [List.getElem?_mapIdx, hn]; rfl)
    · intro h p n f hn hf
      rw [List.getElem?_mapIdx, hn] at hf
      cases hf
      exact h l rfl p n hn

theorem lost_rest (ops : List Op) : phLost ((sizes ops).map fun l => (l, l.mapIdx fun p _ => flags p (later ops))) = rest ops := by
  unfold rest
  cases sizes ops with
  | none => rfl
  | some l =>
    show ((l.zip (l.mapIdx fun p _ => flags p (later ops))).map fun q => lostOf q.1 q.2).sum = _
    congr 1
    refine List.ext_getElem? fun i => ?_
    rw [List.getElem?_map, List.getElem?_mapIdx, List.zip, List.getElem?_zipWith, List.getElem?_mapIdx]
    cases l[i]? <;> rfl

/-- **C215**, what happens exactly: a matrix on which any calls are made is destroyed without undefined behaviour if and only if the calls respect the interface (`Legal`) and every partition was fetched with
fitting flags (`Fetched`); the blocks that are then left are the rows of the extensions of partitions that were fetched with room first and without at last (`rest`), and nothing else that was allocated is lost or freed. -/
theorem C215_exact (nR nC : Nat) (ops : List Op) (h : H) :
    (Legal nR nC ops ∧ Fetched ops → ∃ h', Gen.life nR nC ops h = .ok h' ∧ Leaves h h' (rest ops)) ∧
    (¬ (Legal nR nC ops ∧ Fetched ops) → ∃ e, Gen.life nR nC ops h = .error e) := by
  constructor
  · rintro ⟨hl, hf⟩
    obtain ⟨h', lost, e, a, b⟩ := gen_life nR nC ops h ((ph_none nR nC ops _).2 ⟨hl, rfl⟩) ((fine_fetched ops).2 hf)
    exact ⟨h', e, lost, a, by rw [b, lost_rest]⟩
  · intro hn
    refine gen_life_bad nR nC ops h fun ph hp hf => ?_
    obtain ⟨hl, rfl⟩ := (ph_none nR nC ops ph).1 hp
    exact hn ⟨hl, (fine_fetched ops).1 hf⟩

example : Legal 2 3 [.get 0 true, .partition (1, 2) [(1, 1)], .get 1 false, .size 0, .get 0 true, .get 0 false] ∧
    Fetched [.get 0 true, .partition (1, 2) [(1, 1)], .get 1 false, .size 0, .get 0 true, .get 0 false] ∧
    rest [.get 0 true, .partition (1, 2) [(1, 1)], .get 1 false, .size 0, .get 0 true, .get 0 false] = 2 := by
  refine ⟨⟨?_, ?_⟩, ?_, by decide⟩
  · intro p
    simp [earlier]
  · intro l hl
    cases hl
    refine ⟨by decide, ?_⟩
    intro p h
    simp only [later, List.mem_cons, Op.size.injEq, Op.get.injEq, reduceCtorEq, List.not_mem_nil, or_false, false_or] at h
    rcases h with rfl | ⟨e, h | h | h⟩
    · decide
    · rw [h.1]; decide
    · rw [h.1]; decide
    · rw [h.1]; decide
  · intro l hl p n hn
    cases hl
    match p with
    | 0 => cases hn; decide
    | 1 => cases hn; decide
    | p + 2 => simp at hn

/-- **C215**, a matrix that is never partitioned is freed completely. -/
theorem C215_plain (nR nC : Nat) (ops : List Op) (h : H) (hs : sizes ops = none) (hl : ∀ p, Op.size p ∉ ops) : ∃ h', Gen.life nR nC ops h = .ok h' ∧ Leaves h h' 0 := by
  have he : ∀ ops : List Op, (∀ p, Op.size p ∉ ops) → ∀ p, Op.size p ∉ earlier ops := by
    intro ops
    induction ops with
    | nil => intro h p; simp [earlier]
    | cons o t ih =>
      intro h p
      have ht := ih (fun q hq => h q (List.mem_cons_of_mem _ hq))
      cases o with
      | partition a as => simp [earlier]
      | size q => exact absurd (by simp) (h q)
      | get q e =>
        intro hp
        simp [earlier] at hp
        exact ht p hp
  obtain ⟨h', e, l⟩ := (C215_exact nR nC ops h).1 ⟨⟨he ops hl, fun l hl => by rw [hs] at hl; cases hl⟩, fun l hl => by rw [hs] at hl; cases hl⟩
  have : rest ops = 0 := by unfold rest; rw [hs]
  rw [this] at l
  exact ⟨h', e, l⟩

example : sizes [.get 0 true] = none ∧ ∀ p, Op.size p ∉ [Op.get 0 true] := ⟨rfl, by simp⟩

/-- **C215**, the claim as far as it holds: if each partition is fetched, and always with the same flag, then the matrix is destroyed without undefined behaviour and no block is lost. -/
theorem C215_partial (nR nC : Nat) (ops : List Op) (h : H) (hl : Legal nR nC ops)
    (hf : ∀ l, sizes ops = some l → ∀ p < l.length, ∃ e, flags p (later ops) ≠ [] ∧ ∀ b ∈ flags p (later ops), b = e) :
    ∃ h', Gen.life nR nC ops h = .ok h' ∧ Leaves h h' 0 := by
  have key : ∀ l, sizes ops = some l → ∀ p < l.length, flags p (later ops) ≠ [] ∧ (flags p (later ops)).head? = (flags p (later ops)).getLast? := by
    intro l hs p hp
    obtain ⟨e, h1, h2⟩ := hf l hs p hp
    refine ⟨h1, ?_⟩
    rw [List.head?_eq_some_head h1, List.getLast?_eq_some_getLast h1, h2 _ (List.head_mem h1), h2 _ (List.getLast_mem h1)]
  obtain ⟨h', e, hL⟩ := (C215_exact nR nC ops h).1 ⟨hl, by
    intro l hs p n hn
    obtain ⟨a, b⟩ := key l hs p (List.getElem?_eq_some_iff.1 hn).1
    refine ⟨a, fun c d => ?_⟩
    rw [b, d] at c
    cases c⟩
  have hr : rest ops = 0 := by
    unfold rest
    cases hs : sizes ops with
    | none => rfl
    | some l =>
      show (l.mapIdx _).sum = 0
      refine List.sum_eq_zero fun x hx => ?_
      obtain ⟨p, hp, rfl⟩ := List.mem_mapIdx.1 hx
      rw [if_neg]
      rintro ⟨c, d⟩
      rw [(key l hs p hp).2, d] at c
      cases c
  rw [hr] at hL
  exact ⟨h', e, hL⟩

/-- **C215**, the use by the filters: the matrix is partitioned and every partition is asked for its size and fetched once, with the same flag. -/
theorem C215_filters_partial (nR nC : Nat) (hn : nR + nC ≠ 0) (a : Nat × Nat) (as : List (Nat × Nat)) (ext : Bool) (h : H) :
    ∃ h', Gen.life nR nC (.partition a as :: (List.range (a :: as).length).flatMap fun p => [.size p, .get p ext]) h = .ok h' ∧ Leaves h h' 0 := by
  have hm : ∀ p, flags p ((List.range (a :: as).length).flatMap fun p => [.size p, .get p ext]) = if p < (a :: as).length then [ext] else [] := by
    intro p
    generalize (a :: as).length = k
    induction k with
    | zero => rfl
    | succ k ih =>
      have : flags p ((List.range (k + 1)).flatMap fun p => [.size p, .get p ext]) = flags p ((List.range k).flatMap fun p => [.size p, .get p ext]) ++ if k = p then [ext] else [] := by
        rw [List.range_succ, List.flatMap_append]
        unfold flags
        rw [List.filterMap_append]
        congr 1
        by_cases hk : k = p <;> simp [hk]
      rw [this, ih]
      by_cases h1 : p < k
      · rw [if_pos h1, if_neg (show ¬ k = p by omega), if_pos (show p < k + 1 by omega)]
        rfl
      · by_cases h2 : k = p
        · rw [if_neg h1, if_pos h2, if_pos (show p < k + 1 by omega)]
          rfl
        · rw [if_neg h1, if_neg h2, if_neg (show ¬ p < k + 1 by omega)]
          rfl
  refine C215_partial nR nC _ h ⟨fun p => by simp [earlier], ?_⟩ ?_
  · intro l hl
    cases hl
    refine ⟨hn, ?_⟩
    rintro p (hp | ⟨e, hp⟩)
    · simp only [later, List.mem_flatMap, List.mem_range] at hp
      obtain ⟨q, hq, hp⟩ := hp
      simp at hp
      rw [hp]; exact hq
    · simp only [later, List.mem_flatMap, List.mem_range] at hp
      obtain ⟨q, hq, hp⟩ := hp
      simp at hp
      rw [hp.1]; exact hq
  · intro l hl p hp
    cases hl
    refine ⟨ext, ?_⟩
    show flags p ((List.range (a :: as).length).flatMap fun p => [.size p, .get p ext]) ≠ [] ∧ _
    rw [show later (.partition a as :: (List.range (a :: as).length).flatMap fun p => [Op.size p, Op.get p ext]) = (List.range (a :: as).length).flatMap fun p => [Op.size p, Op.get p ext] from rfl, hm p, if_pos hp]
    exact ⟨by simp, by simp⟩

/-- **C215**, violated: a partition with one row and two columns that is fetched without room for the extension and then with room: the destructor deletes rows that were never allocated. -/
theorem C215_violated_grow : Gen.life 1 2 [.partition (1, 2) [], .get 0 false, .get 0 true] ⟨0, 0⟩ = .error .outOfBounds := rfl

/-- **C215**, violated: the other order loses two blocks. -/
theorem C215_violated_shrink : ∃ h', Gen.life 1 2 [.partition (1, 2) [], .get 0 true, .get 0 false] ⟨0, 0⟩ = .ok h' ∧ Leaves ⟨0, 0⟩ h' 2 := by
  obtain ⟨h', e, l⟩ := (C215_exact 1 2 [.partition (1, 2) [], .get 0 true, .get 0 false] ⟨0, 0⟩).1 (by
    refine ⟨⟨fun p => by simp [earlier], ?_⟩, ?_⟩
    · intro l hl
      cases hl
      refine ⟨by decide, ?_⟩
      intro p h
      simp only [later, List.mem_cons, Op.get.injEq, reduceCtorEq, List.not_mem_nil, or_false, false_or] at h
      obtain ⟨e, h | h⟩ := h <;> (rw [h.1]; decide)
    · intro l hl p n hn
      cases hl
      match p with
      | 0 => cases hn; decide
      | p + 1 => simp at hn)
  exact ⟨h', e, l⟩

/-- **C215**, violated: a partition that is never fetched makes the destructor read an entry of `components_extendedMat` that was never written. -/
theorem C215_violated_unfetched : Gen.life 1 2 [.partition (1, 2) [(0, 0)], .get 0 false] ⟨0, 0⟩ = .error .uninit := rfl

/-- **C215**, violated: `getPartitionSize` before `partition` reads through a pointer that is not set. -/
theorem C215_violated_early : Gen.life 1 2 [.size 0] ⟨0, 0⟩ = .error .null := rfl

/-! ### C216 -/

/-- The calls of the base class among the calls on a `CostMatrix`. -/
def general (ops : List SqOp) : List Op := ops.filterMap fun o => match o with
  | .base op => some op
  | _ => none

/-- How many rows each call of `reduce` left open. -/
def reductions (ops : List SqOp) : List Nat := ops.filterMap fun o => match o with
  | .reduce m => some m
  | _ => none

/-- Blocks lost by calls of `reduce`: every reduced matrix but the last, and the last if it has one row. A reduced matrix with `m` rows has `m + 1` blocks. -/
def lostRed : List Nat → Nat
  | [] => 0
  | [m] => if m = 1 then 2 else 0
  | m :: m' :: t => (if m = 0 then 0 else m + 1) + lostRed (m' :: t)

theorem lostRed_eq (ms : List Nat) : lostRed ms + (if redLast ms = 0 then 0 else redLast ms + 1) = (ms.map redCost).sum := by
  induction ms with
  | nil => rfl
  | cons m t ih =>
    cases t with
    | nil =>
      by_cases h1 : m = 1
      · subst h1; rfl
      · by_cases h0 : m = 0
        · subst h0; rfl
        · simp [lostRed, redLast, redCost, h0, h1]
    | cons m' t =>
      have : redLast (m :: m' :: t) = redLast (m' :: t) := by simp [redLast, List.getLast?_cons_cons]
      rw [this, List.map_cons, List.sum_cons, ← ih]
      simp only [lostRed, redCost]
      omega

/-- **C216**, what happens exactly: blocks lost by a `CostMatrix` are those lost by its base class (C215) and those of reduced matrices: all but the last, and the last if it has one row. -/
theorem C216_exact (n : Nat) (ops : List SqOp) (h : H) (hl : Legal n n (general ops)) (hf : Fetched (general ops)) :
    ∃ h', Sq.life n ops h = .ok h' ∧ Leaves h h' (rest (general ops) + lostRed (reductions ops)) := by
  obtain ⟨h', lost, e, a, b⟩ := sq_life n ops h ((ph_none n n (general ops) _).2 ⟨hl, rfl⟩) ((fine_fetched _).2 hf)
  refine ⟨h', e, lost, a, ?_⟩
  have := lostRed_eq (reductions ops)
  rw [lost_rest, ← show reductions ops = reduces ops from rfl] at b
  omega

theorem legal_nil (nR nC : Nat) : Legal nR nC [] := ⟨fun p => by simp [earlier], fun l h => by cases h⟩

theorem fetched_nil : Fetched [] := fun l h => by cases h

example : Legal 3 3 (general [.reduce 2, .reduced, .reduce 1]) ∧ Fetched (general [.reduce 2, .reduced, .reduce 1]) ∧ lostRed (reductions [.reduce 2, .reduced, .reduce 1]) = 5 :=
  ⟨legal_nil 3 3, fetched_nil, rfl⟩

/-- **C216**, the claim as far as it holds: a matrix that is reduced at most once, and not to one row, and never partitioned is freed completely. -/
theorem C216_partial (n : Nat) (ops : List SqOp) (h : H) (hg : general ops = []) (hr : reductions ops = [] ∨ ∃ m, m ≠ 1 ∧ reductions ops = [m]) : ∃ h', Sq.life n ops h = .ok h' ∧ Leaves h h' 0 := by
  obtain ⟨h', e, l⟩ := C216_exact n ops h (by rw [hg]; exact legal_nil n n) (by rw [hg]; exact fetched_nil)
  have : rest (general ops) + lostRed (reductions ops) = 0 := by
    rw [hg]
    rcases hr with hr | ⟨m, hm, hr⟩
    · rw [hr]; rfl
    · rw [hr]
      show 0 + (if m = 1 then 2 else 0) = 0
      rw [if_neg hm]
  rw [this] at l
  exact ⟨h', e, l⟩

example : general [.reduce 2, .reduced, .reduced] = [] ∧ reductions [.reduce 2, .reduced, .reduced] = [2] := ⟨rfl, rfl⟩

/-- **C216**, violated: whenever `reduce` leaves one row, two blocks are lost; it leaves one row for the matrix with the single entry 0 and the limit 1. -/
theorem C216_violated_one : (∀ n h, ∃ h', Sq.life n [.reduce 1] h = .ok h' ∧ Leaves h h' 2) ∧
    (CostMat.reduce (CostMat.mk (fun _ _ : Fin 1 => (0 : ℚ))) 1 true).map (fun c => c.iRed.length) = some 1 :=
  ⟨fun n h => C216_exact n [.reduce 1] h (legal_nil n n) fetched_nil, by decide +kernel⟩

/-- **C216**, violated: reducing twice loses the first reduced matrix; the second call appends to the index lists of the first. -/
theorem C216_violated_twice : (∀ n h, ∃ h', Sq.life n [.reduce 2, .reduce 4] h = .ok h' ∧ Leaves h h' 3) ∧
    ((CostMat.reduce (CostMat.mk (fun _ _ : Fin 2 => (0 : ℚ))) 1 true).bind fun c => (CostMat.reduce c 1 true).map fun d => [c.iRed.length, d.iRed.length]) = some [2, 4] :=
  ⟨fun n h => C216_exact n [.reduce 2, .reduce 4] h (legal_nil n n) fetched_nil, by decide +kernel⟩

/-! ### C217 -/

/-- **C217**: however often and for whatever matrices the brute force search is called, with its destruction everything it allocated is freed, and nothing else is. -/
theorem C217_brute (ns : List Nat) (h : H) : ∃ h', Brute.life ns h = .ok h' ∧ Leaves h h' 0 := by
  obtain ⟨s, e, ok, l, _⟩ := brute_runs ns (b := ⟨none, none, 0⟩) (h := h) (base := h.live) (fun m h => by cases h) (by simp [Brute.own, matOwn])
  obtain ⟨d, de, dn, _⟩ := brute_deletes ok
  refine ⟨⟨s.2.next, h.live⟩, ?_, 0, by simp, rfl⟩
  unfold Brute.life
  rw [e, ok_bind, de, ok_bind]
  exact freeMany_add d s.2 _ (by rw [l, dn])

/-! ### C218 -/

theorem Sound.wf {h : H} (s : Sound h) : WF h := ⟨s.1, s.2⟩

theorem WF.sqStep {s s' : Sq × H} {op : SqOp} (w : WF s.2) (e : Sq.step s op = .ok s') : WF s'.2 := by
  cases op with
  | base o =>
    obtain ⟨g, e1, rfl⟩ := map_ok_iff.1 e
    exact WF.step (s := (s.1.gen, s.2)) w e1
  | reduce m =>
    cases e
    unfold Sq.reduce
    split
    · exact w.newMat
    · exact w
  | reduced =>
    cases e
    unfold Sq.reduced
    split
    · split
      · exact w
      · exact w.new.new
    · exact w

theorem WF.sqRun {ops : List SqOp} : ∀ {s s' : Sq × H}, WF s.2 → ops.foldlM Sq.step s = .ok s' → WF s'.2 := by
  induction ops with
  | nil => intro s s' w e; cases e; exact w
  | cons op ops ih =>
    intro s s' w e
    obtain ⟨s1, e1, e2⟩ := fold_iff.1 e
    exact ih (WF.sqStep w e1) e2

/-- **C218**, violated: the compiler's copy of a `CostMatrixGeneral` has the same pointers; whenever one of the two can be destroyed, the destruction of the other deletes a block a second time. -/
theorem C218_violated_general (nR nC : Nat) (ops : List Op) (h : H) (hs : Sound h) (s : Gen × H) (e : ops.foldlM Gen.step (Gen.new nR nC h) = .ok s) (h1 : H) (d : s.1.delete s.2 = .ok h1) :
    s.1.delete h1 = .error .badFree := by
  have w : WF s.2 := WF.run (s := Gen.new nR nC h) hs.wf.newMat e
  unfold Gen.delete at d ⊢
  obtain ⟨l, hl, d⟩ := bind_ok_iff.1 d
  rw [hl, ok_bind]
  exact freeMany_twice (deletes_ne hl) w d

/-- **C218**, violated: the same for `CostMatrix`. -/
theorem C218_violated_square (n : Nat) (ops : List SqOp) (h : H) (hs : Sound h) (s : Sq × H) (e : ops.foldlM Sq.step (Sq.new n h) = .ok s) (h1 : H) (d : s.1.delete s.2 = .ok h1) :
    s.1.delete h1 = .error .badFree := by
  have w : WF s.2 := WF.sqRun (s := Sq.new n h) hs.wf.newMat e
  unfold Sq.delete at d ⊢
  obtain ⟨l, hl, d⟩ := bind_ok_iff.1 d
  rw [hl, ok_bind]
  refine freeMany_twice ?_ w d
  unfold Sq.deletes at hl
  obtain ⟨a, _, hl⟩ := bind_ok_iff.1 hl
  obtain ⟨b, hb, rfl⟩ := map_ok_iff.1 hl
  intro h0
  exact deletes_ne hb (List.append_eq_nil_iff.1 h0).2

/-- **C218**, violated: the same for the brute force search after at least one run. -/
theorem C218_violated_brute (ns : List Nat) (hn : ns ≠ []) (h : H) (hs : Sound h) : ∃ s l h1, ns.foldlM (fun (s : Brute × H) n => s.1.run n s.2) (⟨none, none, 0⟩, h) = .ok s ∧
    s.1.deletes = .ok l ∧ freeMany l s.2 = .ok h1 ∧ freeMany l h1 = .error .badFree := by
  obtain ⟨s, e, ok, l, ne⟩ := brute_runs ns (b := ⟨none, none, 0⟩) (h := h) (base := h.live) (fun m h => by cases h) (by simp [Brute.own, matOwn])
  obtain ⟨d, de, dn, dl⟩ := brute_deletes ok
  have hf := freeMany_add d s.2 h.live (by rw [l, dn])
  exact ⟨s, d, _, e, de, hf, freeMany_twice (dl (ne hn)) (WF.of_runs (s := (⟨none, none, 0⟩, h)) hs.wf e) hf⟩

/-- **C218**, violated: the same for the list of permutations and for Murty's algorithm. -/
theorem C218_violated_others (h : H) (hs : Sound h) :
    (∃ h1, free (perm h).2 (perm h).1 = .ok h1 ∧ free h1 (perm h).1 = .error .badFree) ∧
    ∀ n, ∃ l h1, (murty n h).1.deletes n = .ok l ∧ freeMany l (murty n h).2 = .ok h1 ∧ freeMany l h1 = .error .badFree := by
  constructor
  · have f := freeMany_add [(perm h).1] (perm h).2 h.live (new_live h)
    have g := freeMany_twice (by simp) hs.wf.new f
    rw [freeMany_cons] at f g
    obtain ⟨h1, a, b⟩ := bind_ok_iff.1 f
    rw [freeMany_nil] at b
    cases b
    refine ⟨_, a, ?_⟩
    cases hx : free ⟨(perm h).2.next, h.live⟩ (perm h).1 with
    | ok y => rw [hx, ok_bind] at g; cases g
    | error y => rw [hx] at g; exact g
  · intro n
    obtain ⟨r1, r2⟩ := newMat_spec n h
    obtain ⟨l, le, ln, lo⟩ := Mat.deletes_all (m := (murty n h).1) r1
    have f := freeMany_add l (murty n h).2 h.live (by rw [lo]; exact r2)
    exact ⟨l, _, le, f, freeMany_twice ln hs.wf.newMat f⟩

/-- **C218**, the claim as far as it holds: a brute force search that was never run owns nothing, any number of copies can be destroyed. -/
theorem C218_fresh_partial (h : H) : (⟨none, none, 0⟩ : Brute).deletes = .ok [] ∧ freeMany [] h = .ok h := ⟨rfl, rfl⟩

example : Sound ⟨0, 0⟩ ∧ ∃ s h1, [Op.partition (1, 1) [], .get 0 true].foldlM Gen.step (Gen.new 1 1 ⟨0, 0⟩) = .ok s ∧ s.1.delete s.2 = .ok h1 := by
  refine ⟨⟨Multiset.nodup_zero, by simp⟩, ?_⟩
  obtain ⟨h', e, _⟩ := C215_filters_partial 1 1 (by decide) (1, 1) [] true ⟨0, 0⟩
  obtain ⟨s, e1, e2⟩ := bind_ok_iff.1 (e : Gen.life 1 1 [.partition (1, 1) [], .size 0, .get 0 true] ⟨0, 0⟩ = .ok h')
  exact ⟨s, h', by rw [← e1]; rfl, e2⟩

/-! ### C219 -/

/-- An update of each of the given sizes, one after the other. -/
def updates (us : List (Nat × Nat × Nat)) (h : H) : Except Err H := us.foldlM (fun h u => fastUpdate u.1 u.2.1 u.2.2 h) h

theorem Leaves.trans {a b c : H} {i j : Nat} (x : Leaves a b i) (y : Leaves b c j) : Leaves a c (i + j) := by
  obtain ⟨l, e, rfl⟩ := x
  obtain ⟨l', e', rfl⟩ := y
  exact ⟨l' + l, by rw [e', e, add_assoc], by rw [Multiset.card_add, add_comm]⟩

theorem Leaves.refl (h : H) : Leaves h h 0 := ⟨0, by simp, rfl⟩

/-- **C219**, what happens exactly: FastSLAM updates never free a block wrongly; they lose two blocks for every update whose likelihood table is reduced to one row, and nothing else. -/
theorem C219_exact (us : List (Nat × Nat × Nat)) : ∀ h : H, ∃ h', updates us h = .ok h' ∧ Leaves h h' (2 * us.countP fun u => u.2.1 = 1) := by
  induction us with
  | nil => exact fun h => ⟨h, rfl, Leaves.refl h⟩
  | cons u us ih =>
    intro h
    obtain ⟨h1, lost, e, a, b⟩ := fast_update u.1 u.2.1 u.2.2 h
    obtain ⟨h2, e2, l2⟩ := ih h1
    refine ⟨h2, fold_iff.2 ⟨h1, e, e2⟩, ?_⟩
    have := Leaves.trans ⟨lost, a, b⟩ l2
    rw [List.countP_cons]
    by_cases hu : u.2.1 = 1
    · simp only [hu, if_true, decide_true] at this ⊢
      rwa [show 2 * (List.countP (fun u => decide (u.2.1 = 1)) us + 1) = 2 + 2 * List.countP (fun u => decide (u.2.1 = 1)) us by ring]
    · rw [if_neg hu, zero_add] at this
      simpa [hu] using this

/-- **C219**, the claim as far as it holds: without such updates nothing is lost. -/
theorem C219_partial (us : List (Nat × Nat × Nat)) (h : H) (hu : ∀ u ∈ us, u.2.1 ≠ 1) : ∃ h', updates us h = .ok h' ∧ Leaves h h' 0 := by
  obtain ⟨h', e, l⟩ := C219_exact us h
  rw [List.countP_eq_zero.2 (by simpa using hu)] at l
  exact ⟨h', e, l⟩

example : ∀ u ∈ [(3, 2, 5), (2, 0, 1)], u.2.1 ≠ 1 := by decide

/-- **C219**, violated: every update of a map with one landmark that no measurement fits (a table with one entry, at the limit) loses two blocks, for ever. -/
theorem C219_violated (k : Nat) (h : H) : (∃ h', updates (List.replicate k (1, 1, 1)) h = .ok h' ∧ Leaves h h' (2 * k)) ∧
    ∀ lim c : ℚ, c ≤ lim → (CostMat.reduce (CostMat.mk (fun _ _ : Fin 1 => c)) lim true).map (fun c => c.iRed.length) = some 1 := by
  constructor
  · obtain ⟨h', e, l⟩ := C219_exact (List.replicate k (1, 1, 1)) h
    refine ⟨h', e, ?_⟩
    rw [List.countP_replicate] at l
    simpa using l
  · intro lim c hc
    have hs : CostMat.scan (CostMat.mk (fun _ _ : Fin 1 => c)) lim true = ⟨Function.update (fun _ _ => c) 0 (Function.update (fun _ => c) 0 lim), fun _ => 0, fun _ => 0, fun _ => none, fun _ => none⟩ := by
      unfold CostMat.scan
      rw [show CostMat.pairs 1 = [(0, 0)] by decide]
      simp [CostMat.scanStep, CostMat.beyond, CostMat.mk, hc]
    unfold CostMat.reduce
    simp only [hs]
    simp [CostMat.keepAf, CostMat.keepAr, CostMat.mk]

/-! ### C220 -/

/-- `k` calls of `optimizeParticles` with `n` particles. -/
def optimisations (n : Nat) : Nat → H → Except Err H
  | 0, h => .ok h
  | k + 1, h => (optimise n h).bind (optimisations n k)

theorem optimiseOne_leaves (h : H) : ∃ h', optimiseOne h = .ok h' ∧ Leaves h h' 3 := by
  obtain ⟨c, hc⟩ : ∃ c, c = Ceres.new h := ⟨_, rfl⟩
  have l1 : c.2.live = {c.1.rModel} + ({c.1.mModel} + ({c.1.self} + h.live)) := by
    rw [hc]
    unfold Ceres.new
    rw [new_live, new_live, new_live]
  refine ⟨⟨(new (new (new c.2).2).2).2.next, {(new (new (new c.2).2).2).1, c.1.rModel, c.1.mModel} + h.live⟩, ?_, _, rfl, rfl⟩
  unfold optimiseOne
  rw [← hc]
  refine freeMany_add _ _ _ ?_
  rw [new_live, new_live, new_live, l1]
  simp only [← Multiset.cons_coe, Multiset.coe_nil, Multiset.insert_eq_cons, ← Multiset.singleton_add]
  abel

theorem optimise_leaves (n : Nat) : ∀ h, ∃ h', optimise n h = .ok h' ∧ Leaves h h' (3 * n) := by
  induction n with
  | zero => exact fun h => ⟨h, rfl, Leaves.refl h⟩
  | succ n ih =>
    intro h
    obtain ⟨h1, e1, l1⟩ := optimiseOne_leaves h
    obtain ⟨h2, e2, l2⟩ := ih h1
    refine ⟨h2, bind_ok_iff.2 ⟨h1, e1, e2⟩, ?_⟩
    have := l1.trans l2
    rwa [show 3 + 3 * n = 3 * (n + 1) by ring] at this

/-- **C220**, what happens exactly: no block is freed wrongly, and every call of `optimizeParticles` loses three blocks for each particle. -/
theorem C220_exact_partial (n k : Nat) : ∀ h, ∃ h', optimisations n k h = .ok h' ∧ Leaves h h' (3 * n * k) := by
  induction k with
  | zero => exact fun h => ⟨h, rfl, Leaves.refl h⟩
  | succ k ih =>
    intro h
    obtain ⟨h1, e1, l1⟩ := optimise_leaves n h
    obtain ⟨h2, e2, l2⟩ := ih h1
    refine ⟨h2, bind_ok_iff.2 ⟨h1, e1, e2⟩, ?_⟩
    have := l1.trans l2
    rwa [show 3 * n + 3 * n * k = 3 * n * (k + 1) by ring] at this

/-- **C220**, violated: with at least one particle the lost memory exceeds every bound. -/
theorem C220_violated (n : Nat) (hn : 0 < n) (B : Nat) : ∃ k h', optimisations n k ⟨0, 0⟩ = .ok h' ∧ B < h'.live.card := by
  obtain ⟨h', e, lost, l, c⟩ := C220_exact_partial n (B + 1) ⟨0, 0⟩
  refine ⟨B + 1, h', e, ?_⟩
  rw [l, Multiset.card_add, c]
  have : B + 1 ≤ 3 * n * (B + 1) := Nat.le_mul_of_pos_left _ (by omega)
  show B < _ + 0
  omega

example : 0 < 10 := by decide

/-! ### C221 -/

theorem ceres_live (h : H) : (Ceres.new h).2.live = {(Ceres.new h).1.rModel} + ({(Ceres.new h).1.mModel} + ({(Ceres.new h).1.self} + h.live)) := by
  unfold Ceres.new
  rw [new_live, new_live, new_live]

theorem sim_run (useDA : Bool) (h : H) : ∃ h', Sim.run useDA (some (Ceres.new h).1) (Ceres.new h).2 = .ok (none, h') ∧ Leaves h h' (if useDA then 6 else 2) := by
  obtain ⟨c, hc⟩ : ∃ c, c = Ceres.new h := ⟨_, rfl⟩
  have l1 : c.2.live = {c.1.rModel} + ({c.1.mModel} + ({c.1.self} + h.live)) := by rw [hc]; exact ceres_live h
  rw [← hc]
  cases useDA with
  | true =>
    refine ⟨(new (new (new c.2).2).2).2, rfl, {(new (new (new c.2).2).2).1, (new (new c.2).2).1, (new c.2).1, c.1.rModel, c.1.mModel, c.1.self}, ?_, rfl⟩
    rw [new_live, new_live, new_live, l1]
    simp only [Multiset.insert_eq_cons, ← Multiset.singleton_add]
    abel
  | false =>
    have f := freeMany_add [c.1.mModel, c.1.rModel, c.1.self] (new (new (new c.2).2).2).2 ({(new (new (new c.2).2).2).1} + ({(new (new c.2).2).1, (new c.2).1} + h.live)) (by
      rw [new_live, new_live, new_live, l1]
      simp only [← Multiset.cons_coe, Multiset.coe_nil, Multiset.insert_eq_cons, ← Multiset.singleton_add]
      abel)
    have g := freeMany_add [(new (new (new c.2).2).2).1] ⟨(new (new (new c.2).2).2).2.next, {(new (new (new c.2).2).2).1} + ({(new (new c.2).2).1, (new c.2).1} + h.live)⟩ _ rfl
    rw [freeMany_cons] at g
    obtain ⟨h1, g1, g2⟩ := bind_ok_iff.1 g
    rw [freeMany_nil] at g2
    cases g2
    refine ⟨⟨(new (new (new c.2).2).2).2.next, {(new (new c.2).2).1, (new c.2).1} + h.live⟩, ?_, {(new (new c.2).2).1, (new c.2).1}, rfl, rfl⟩
    show ((freeMany [c.1.mModel, c.1.rModel, c.1.self] (new (new (new c.2).2).2).2).bind fun h => free h (new (new (new c.2).2).2).1).map _ = _
    rw [f, ok_bind, g1]
    rfl

/-- **C221**, violated: one run of a simulator of the batch optimiser loses six blocks with data association (the optimiser with its two models, and three parameter vectors) and two without. -/
theorem C221_violated (h : H) (useDA : Bool) : ∃ h', Sim.life useDA 1 h = .ok h' ∧ Leaves h h' (if useDA then 6 else 2) := by
  obtain ⟨h', e, l⟩ := sim_run useDA h
  refine ⟨h', ?_, l⟩
  unfold Sim.life
  exact bind_ok_iff.2 ⟨_, fold_iff.2 ⟨_, e, rfl⟩, rfl⟩

/-- **C221**, violated: `run` cannot be called twice, the second call uses a null pointer. -/
theorem C221_violated_twice (useDA : Bool) (k : Nat) (h : H) : Sim.life useDA (k + 2) h = .error .null := by
  obtain ⟨h', e, _⟩ := sim_run useDA h
  unfold Sim.life
  dsimp only
  rw [List.replicate_succ, List.replicate_succ, foldlM_cons_iff]
  dsimp only
  rw [e, ok_bind, foldlM_cons_iff]
  rfl

/-- **C221**, the claim as far as it holds: a simulator that is not run (its configuration cannot be read) is freed completely. -/
theorem C221_partial (useDA : Bool) (h : H) : ∃ h', Sim.life useDA 0 h = .ok h' ∧ Leaves h h' 0 := by
  refine ⟨⟨(Ceres.new h).2.next, h.live⟩, ?_, 0, by simp, rfl⟩
  show freeMany [(Ceres.new h).1.mModel, (Ceres.new h).1.rModel, (Ceres.new h).1.self] (Ceres.new h).2 = _
  refine freeMany_add _ _ _ ?_
  rw [ceres_live]
  simp only [← Multiset.cons_coe, Multiset.coe_nil, ← Multiset.singleton_add]
  abel

end HeapProps
end RFS
