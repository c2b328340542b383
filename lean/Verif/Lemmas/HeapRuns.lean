import Verif.Lemmas.Heap

/-! Lemmas for `Verif.Model.Heap`: whole lives of objects. -/

set_option linter.unusedSectionVars false

namespace RFS
namespace Heap

/-- `none`: not partitioned; otherwise the sizes of the partitions and the flags with which each was fetched. -/
abbrev Ph := Option (List (Nat × Nat) × List (List Bool))

/-- The effect of a call, `none` if it is not allowed. -/
def phStep (nR nC : Nat) : Ph → Op → Option Ph
  | none, .partition a as => if nR + nC = 0 then none else some (some (a :: as, (a :: as).map fun _ => []))
  | some q, .partition _ _ => some (some q)
  | none, .size _ => none
  | some q, .size p => if p < q.1.length then some (some q) else none
  | none, .get _ _ => some none
  | some (ns, fs), .get p e => if p < ns.length then some (some (ns, fs.modify p (· ++ [e]))) else none

/-- The state of a matrix. -/
def GInv (nR nC : Nat) (base : Multiset Nat) (ph : Ph) (s : Gen × H) : Prop :=
  match ph with
  | none => Inv0 nR nC base s
  | some q => ∃ t, Inv nR nC base q.1 q.2 s t

theorem GInv.live {nR nC : Nat} {base : Multiset Nat} {ph : Ph} {s : Gen × H} (h : GInv nR nC base ph s) : s.2.live = s.1.own + base := by
  cases ph with
  | none => exact Inv0.live h
  | some q => obtain ⟨t, h⟩ := h; exact h.live

/-- Other objects allocate or free memory. -/
theorem GInv.other {nR nC : Nat} {base base' : Multiset Nat} {ph : Ph} {s : Gen × H} (h : GInv nR nC base ph s) (h' : H) (e : h'.live = s.1.own + base') : GInv nR nC base' ph (s.1, h') := by
  cases ph with
  | none =>
    have h0 : Inv0 nR nC base s := h
    exact ⟨h0.part, h0.nr, h0.nc, h0.rows, e⟩
  | some q =>
    obtain ⟨t, h⟩ := h
    exact ⟨t, { part := h.part, nr := h.nr, nc := h.nc, rows := h.rows, live := e, sizes := h.sizes, rel := h.rel }⟩

theorem modify_set {α : Type} (f : α → α) : ∀ (l : List α) (p : Nat) (x : α), l[p]? = some x → l.modify p f = l.set p (f x) := by
  intro l
  induction l with
  | nil => intro p x h; simp at h
  | cons a l ih =>
    intro p x h
    cases p with
    | zero =>
      have : a = x := by simpa using h
      subst this
      rfl
    | succ p =>
      have h' : l[p]? = some x := by simpa using h
      simp [ih p x h']

theorem ginv_step {nR nC : Nat} {base : Multiset Nat} {ph : Ph} {s : Gen × H} (h : GInv nR nC base ph s) (op : Op) :
    match phStep nR nC ph op with
    | some ph' => ∃ s', Gen.step s op = .ok s' ∧ GInv nR nC base ph' s'
    | none => ∃ e, Gen.step s op = .error e := by
  cases ph with
  | none =>
    have h : Inv0 nR nC base s := h
    cases op with
    | partition a as =>
      rw [show phStep nR nC none (.partition a as) = if nR + nC = 0 then none else some (some (a :: as, (a :: as).map fun _ => [])) from rfl]
      by_cases hn : nR + nC = 0
      · rw [if_pos hn]
        refine ⟨.graph, ?_⟩
        show s.1.partition _ _ = _
        unfold Gen.partition
        rw [h.part]
        simp only
        rw [if_pos (by rw [h.nr, h.nc]; exact hn)]
      · rw [if_neg hn]
        obtain ⟨s', t, e, i⟩ := inv_partition h hn (a :: as)
        exact ⟨s', e, t, i⟩
    | size p =>
      refine ⟨.null, ?_⟩
      show (s.1.getSize p).map _ = _
      unfold Gen.getSize
      rw [h.part]
      rfl
    | get p e =>
      refine ⟨s, ?_, h⟩
      show s.1.get p e s.2 = _
      unfold Gen.get
      rw [h.part]
  | some q =>
    obtain ⟨ns, fs⟩ := q
    obtain ⟨t, h⟩ := h
    have h : Inv nR nC base ns fs s t := h
    have hlen : t.cells.length = ns.length := by rw [← h.sizes, List.length_map]
    cases op with
    | partition a as =>
      refine ⟨s, ?_, t, h⟩
      show s.1.partition _ _ = _
      unfold Gen.partition
      rw [h.part]
    | size p =>
      rw [show phStep nR nC (some (ns, fs)) (.size p) = if p < ns.length then some (some (ns, fs)) else none from rfl]
      by_cases hp : p < ns.length
      · rw [if_pos hp]
        refine ⟨s, ?_, t, h⟩
        show (s.1.getSize p).map _ = _
        unfold Gen.getSize
        rw [h.part]
        simp only [List.getElem?_eq_getElem (hlen ▸ hp : p < t.cells.length)]
        rfl
      · rw [if_neg hp]
        refine ⟨.outOfBounds, ?_⟩
        show (s.1.getSize p).map _ = _
        unfold Gen.getSize
        rw [h.part]
        simp only [List.getElem?_eq_none (by omega : t.cells.length ≤ p)]
        rfl
    | get p e =>
      rw [show phStep nR nC (some (ns, fs)) (.get p e) = if p < ns.length then some (some (ns, fs.modify p (· ++ [e]))) else none from rfl]
      by_cases hp : p < ns.length
      · rw [if_pos hp]
        obtain ⟨s', t', f, hf, e, i⟩ := inv_get h p e hp
        refine ⟨s', e, t', ?_⟩
        rw [modify_set _ _ _ _ hf]
        exact i
      · rw [if_neg hp]
        refine ⟨.outOfBounds, ?_⟩
        show s.1.get p e s.2 = _
        unfold Gen.get
        rw [h.part]
        simp only [List.getElem?_eq_none (by omega : t.cells.length ≤ p)]

theorem ofoldlM_cons {σ ι : Type} (f : σ → ι → Option σ) (s : σ) (i : ι) (l : List ι) : (i :: l).foldlM f s = (f s i).bind fun s' => l.foldlM f s' := by
  rw [List.foldlM_cons]
  cases f s i <;> rfl

theorem ginv_run {nR nC : Nat} {base : Multiset Nat} (ops : List Op) : ∀ {ph : Ph} {s : Gen × H}, GInv nR nC base ph s →
    match ops.foldlM (phStep nR nC) ph with
    | some ph' => ∃ s', ops.foldlM Gen.step s = .ok s' ∧ GInv nR nC base ph' s'
    | none => ∃ e, ops.foldlM Gen.step s = .error e := by
  induction ops with
  | nil => exact fun h => ⟨_, rfl, h⟩
  | cons op ops ih =>
    intro ph s h
    rw [ofoldlM_cons, foldlM_cons_iff]
    have h1 := ginv_step h op
    cases hp : phStep nR nC ph op with
    | none =>
      rw [hp] at h1
      obtain ⟨e, he⟩ := h1
      rw [he]
      exact ⟨e, rfl⟩
    | some ph' =>
      rw [hp] at h1
      obtain ⟨s', e, i⟩ := h1
      rw [e]
      exact ih i

/-- All partitions can be deleted. -/
def PhFine : Ph → Prop
  | none => True
  | some (ns, fs) => ∀ (p : Nat) n f, ns[p]? = some n → fs[p]? = some f → Fine n f

/-- Rows that the destructor does not delete. -/
def phLost : Ph → Nat
  | none => 0
  | some (ns, fs) => ((ns.zip fs).map fun q => lostOf q.1 q.2).sum

theorem forall2_index {α β : Type} {R : α → β → Prop} : ∀ {l : List α} {k : List β}, l.length = k.length → ((∀ (p : Nat) x y, l[p]? = some x → k[p]? = some y → R x y) ↔ List.Forall₂ R l k) := by
  intro l
  induction l with
  | nil =>
    intro k hl
    cases k with
    | nil => exact ⟨fun _ => .nil, fun _ p x y h => by simp at h⟩
    | cons b k => simp at hl
  | cons a l ih =>
    intro k hl
    cases k with
    | nil => simp at hl
    | cons b k =>
      have hl' : l.length = k.length := by simpa using hl
      constructor
      · intro h
        exact .cons (h 0 a b rfl rfl) ((ih hl').1 fun p x y hx hy => h (p + 1) x y (by simpa using hx) (by simpa using hy))
      · intro h p x y hx hy
        obtain ⟨h1, h2⟩ := List.forall₂_cons.1 h
        cases p with
        | zero =>
          cases hx
          cases hy
          exact h1
        | succ p => exact (ih hl').2 h2 p x y (by simpa using hx) (by simpa using hy)

theorem fine_iff {nR nC : Nat} {base : Multiset Nat} {ns : List (Nat × Nat)} {fs : List (List Bool)} {s : Gen × H} {t : Parts} (h : Inv nR nC base ns fs s t) :
    PhFine (some (ns, fs)) ↔ List.Forall₂ (fun c f => Fine (PCell.size c) f) t.cells fs := by
  have hl : ns.length = fs.length := by rw [← h.sizes, List.length_map]; exact h.rel.length_eq
  show (∀ (p : Nat) n f, ns[p]? = some n → fs[p]? = some f → Fine n f) ↔ _
  rw [forall2_index hl, ← h.sizes, List.forall₂_map_left_iff]

theorem lost_eq {nR nC : Nat} {base : Multiset Nat} {ns : List (Nat × Nat)} {fs : List (List Bool)} {s : Gen × H} {t : Parts} (h : Inv nR nC base ns fs s t) :
    ((t.cells.zip fs).map fun q => lostOf q.1.size q.2).sum = phLost (some (ns, fs)) := by
  show _ = ((ns.zip fs).map fun q => lostOf q.1 q.2).sum
  rw [← h.sizes, List.zip_map_left, List.map_map]
  rfl

theorem ginv_deletes {nR nC : Nat} {base : Multiset Nat} {ph : Ph} {s : Gen × H} (h : GInv nR nC base ph s) (hf : PhFine ph) :
    ∃ l lost, s.1.deletes = .ok l ∧ s.1.own = (l : Multiset Nat) + lost ∧ lost.card = phLost ph := by
  cases ph with
  | none =>
    obtain ⟨l, e, o⟩ := delete_none h
    exact ⟨l, 0, e, by rw [o, add_zero], rfl⟩
  | some q =>
    obtain ⟨ns, fs⟩ := q
    obtain ⟨t, h⟩ := h
    have h : Inv nR nC base ns fs s t := h
    obtain ⟨l, lost, e, o, c⟩ := delete_fine h ((fine_iff h).1 hf)
    exact ⟨l, lost, e, o, by rw [c, lost_eq h]⟩

theorem ginv_deletes_bad {nR nC : Nat} {base : Multiset Nat} {ph : Ph} {s : Gen × H} (h : GInv nR nC base ph s) (hf : ¬ PhFine ph) : ∃ e, s.1.deletes = .error e ∧ (e = .uninit ∨ e = .outOfBounds) := by
  cases ph with
  | none => exact absurd (show PhFine none from trivial) hf
  | some q =>
    obtain ⟨ns, fs⟩ := q
    obtain ⟨t, h⟩ := h
    have h : Inv nR nC base ns fs s t := h
    exact delete_bad h fun hh => hf ((fine_iff h).2 hh)

theorem gen_life (nR nC : Nat) (ops : List Op) (h : H) {ph : Ph} (hp : ops.foldlM (phStep nR nC) none = some ph) (hf : PhFine ph) :
    ∃ h' lost, Gen.life nR nC ops h = .ok h' ∧ h'.live = lost + h.live ∧ lost.card = phLost ph := by
  have := ginv_run ops (ph := none) (inv0_new nR nC h)
  rw [hp] at this
  obtain ⟨s, e, i⟩ := this
  obtain ⟨l, lost, d, o, c⟩ := ginv_deletes i hf
  refine ⟨⟨s.2.next, lost + h.live⟩, lost, ?_, rfl, c⟩
  unfold Gen.life
  rw [e]
  show s.1.delete s.2 = _
  unfold Gen.delete
  rw [d]
  show freeMany l s.2 = _
  exact freeMany_add l s.2 _ (by rw [i.live, o, add_assoc])

theorem gen_life_bad (nR nC : Nat) (ops : List Op) (h : H) (hp : ∀ ph, ops.foldlM (phStep nR nC) none = some ph → ¬ PhFine ph) : ∃ e, Gen.life nR nC ops h = .error e := by
  have := ginv_run ops (ph := none) (inv0_new nR nC h)
  cases hq : ops.foldlM (phStep nR nC) none with
  | none =>
    rw [hq] at this
    obtain ⟨e, he⟩ := this
    exact ⟨e, by unfold Gen.life; rw [he]; rfl⟩
  | some ph =>
    rw [hq] at this
    obtain ⟨s, e, i⟩ := this
    obtain ⟨x, d, _⟩ := ginv_deletes_bad i (hp ph hq)
    refine ⟨x, ?_⟩
    unfold Gen.life
    rw [e]
    show s.1.delete s.2 = _
    unfold Gen.delete
    rw [d]
    rfl

/-! ### CostMatrix -/

/-- Blocks allocated by a call of `reduce` that leaves `m` rows. -/
def redCost (m : Nat) : Nat := if m = 0 then 0 else m + 1

/-- Size of the reduced matrix after calls of `reduce` that left `ms` rows. -/
def redLast (ms : List Nat) : Nat := match ms.getLast? with
  | none => 0
  | some m => if m = 1 then 0 else m

def matOwn (m : Option Mat) : Multiset Nat := match m with
  | none => 0
  | some m => m.own

def mapsOwn (m : Option (Nat × Nat)) : Multiset Nat := match m with
  | none => 0
  | some m => {m.1} + {m.2}

/-- The state of a square matrix on which `reduce` was called with the results `ms`. -/
structure SInv (n : Nat) (base : Multiset Nat) (ph : Ph) (ms : List Nat) (s : Sq × H) (gone : Multiset Nat) : Prop where
  gen : GInv n n (matOwn s.1.red + mapsOwn s.1.maps + gone + base) ph (s.1.gen, s.2)
  cost : (matOwn s.1.red).card + gone.card = (ms.map redCost).sum
  last : s.1.nRed = redLast ms
  red : 0 < s.1.nRed → ∃ m, s.1.red = some m ∧ m.rows.length = s.1.nRed

theorem sinv_new (n : Nat) (h : H) : SInv n h.live none [] (Sq.new n h) 0 := by
  refine ⟨?_, rfl, rfl, fun h => absurd h (Nat.lt_irrefl _)⟩
  have := inv0_new n n h
  show Inv0 n n (0 + 0 + 0 + h.live) _
  rw [zero_add, zero_add, zero_add]
  exact this

theorem card_own (m : Mat) : m.own.card = m.rows.length + 1 := by simp [Mat.own]

theorem redLast_snoc (ms : List Nat) (m : Nat) : redLast (ms ++ [m]) = if m = 1 then 0 else m := by simp [redLast]

theorem sinv_reduce {n : Nat} {base : Multiset Nat} {ph : Ph} {ms : List Nat} {s : Sq × H} {gone : Multiset Nat} (h : SInv n base ph ms s gone) (m : Nat) :
    ∃ gone', SInv n base ph (ms ++ [m]) (s.1.reduce m s.2) gone' := by
  unfold Sq.reduce
  by_cases hm : m = 0
  · rw [if_neg (by simpa using hm)]
    subst hm
    refine ⟨gone, h.gen, ?_, ?_, fun h => absurd h (Nat.lt_irrefl _)⟩
    · rw [h.cost]
      simp [redCost]
    · rw [redLast_snoc]
      rfl
  · rw [if_pos hm]
    refine ⟨matOwn s.1.red + gone, ?_, ?_, ?_, ?_⟩
    · refine h.gen.other _ ?_
      show (newMat m s.2).2.live = _
      rw [(newMat_spec m s.2).2, h.gen.live]
      show _ = s.1.gen.own + ((newMat m s.2).1.own + _ + _ + _)
      simp only
      abel
    · show (newMat m s.2).1.own.card + _ = _
      rw [Multiset.card_add, h.cost, card_own, (newMat_spec m s.2).1]
      simp [redCost, hm]
      omega
    · show (if m = 1 then 0 else m) = _
      rw [redLast_snoc]
    · intro hp
      refine ⟨_, rfl, ?_⟩
      show _ = if m = 1 then 0 else m
      have hp : 0 < if m = 1 then 0 else m := hp
      rw [(newMat_spec m s.2).1]
      split at hp
      · omega
      · rename_i h1; rw [if_neg h1]

theorem sinv_reduced {n : Nat} {base : Multiset Nat} {ph : Ph} {ms : List Nat} {s : Sq × H} {gone : Multiset Nat} (h : SInv n base ph ms s gone) : SInv n base ph ms (s.1.reduced s.2) gone := by
  unfold Sq.reduced
  split
  · split
    · exact h
    · rename_i hm
      refine ⟨?_, h.cost, h.last, h.red⟩
      refine h.gen.other _ ?_
      show (new (new s.2).2).2.live = _
      rw [new_live, new_live, h.gen.live, hm]
      simp only [mapsOwn]
      abel
  · exact h

/-- The calls of the base class among `ops`. -/
def baseOps (ops : List SqOp) : List Op := ops.filterMap fun o => match o with
  | .base op => some op
  | _ => none

/-- The results of the calls of `reduce` among `ops`. -/
def reduces (ops : List SqOp) : List Nat := ops.filterMap fun o => match o with
  | .reduce m => some m
  | _ => none

theorem sinv_run {n : Nat} {base : Multiset Nat} (ops : List SqOp) : ∀ {ph : Ph} {ms : List Nat} {s : Sq × H} {gone : Multiset Nat}, SInv n base ph ms s gone →
    match (baseOps ops).foldlM (phStep n n) ph with
    | some ph' => ∃ s' gone', ops.foldlM Sq.step s = .ok s' ∧ SInv n base ph' (ms ++ reduces ops) s' gone'
    | none => ∃ e, ops.foldlM Sq.step s = .error e := by
  induction ops with
  | nil =>
    intro ph ms s gone h
    refine ⟨s, gone, rfl, ?_⟩
    rw [show reduces [] = [] from rfl, List.append_nil]
    exact h
  | cons op ops ih =>
    intro ph ms s gone h
    rw [foldlM_cons_iff]
    cases op with
    | base op =>
      rw [show baseOps (.base op :: ops) = op :: baseOps ops from rfl, show reduces (.base op :: ops) = reduces ops from rfl, ofoldlM_cons]
      have h1 := ginv_step h.gen op
      cases hp : phStep n n ph op with
      | none =>
        rw [hp] at h1
        obtain ⟨e, he⟩ := h1
        refine ⟨e, ?_⟩
        show ((Gen.step (s.1.gen, s.2) op).map _).bind _ = _
        rw [he]
        rfl
      | some ph' =>
        rw [hp] at h1
        obtain ⟨g, e, i⟩ := h1
        show match (baseOps ops).foldlM (phStep n n) ph' with | some ph' => _ | none => _
        have hs : SInv n base ph' ms ({ s.1 with gen := g.1 }, g.2) gone := ⟨i, h.cost, h.last, h.red⟩
        have := ih hs
        show match (baseOps ops).foldlM (phStep n n) ph' with
          | some ph' => ∃ s' gone', ((Gen.step (s.1.gen, s.2) op).map _).bind _ = .ok s' ∧ _
          | none => ∃ e, ((Gen.step (s.1.gen, s.2) op).map _).bind _ = .error e
        rw [e]
        exact this
    | reduce m =>
      rw [show baseOps (.reduce m :: ops) = baseOps ops from rfl, show reduces (.reduce m :: ops) = m :: reduces ops from rfl]
      obtain ⟨g', h'⟩ := sinv_reduce h m
      have := ih h'
      rw [List.append_assoc, List.singleton_append] at this
      exact this
    | reduced =>
      rw [show baseOps (.reduced :: ops) = baseOps ops from rfl, show reduces (.reduced :: ops) = reduces ops from rfl]
      exact ih (sinv_reduced h)

theorem sinv_deletes {n : Nat} {base : Multiset Nat} {ph : Ph} {ms : List Nat} {s : Sq × H} {gone : Multiset Nat} (h : SInv n base ph ms s gone) (hf : PhFine ph) :
    ∃ l lost, s.1.deletes = .ok l ∧ s.1.gen.own + matOwn s.1.red + mapsOwn s.1.maps + gone = (l : Multiset Nat) + lost ∧
      lost.card + (if redLast ms = 0 then 0 else redLast ms + 1) = phLost ph + (ms.map redCost).sum := by
  obtain ⟨gl, glost, ge, go, gc⟩ := ginv_deletes h.gen hf
  have ge : s.1.gen.deletes = .ok gl := ge
  have go : s.1.gen.own = (gl : Multiset Nat) + glost := go
  have hml : mapsOwn s.1.maps = ((mapDeletes s.1.maps : List Nat) : Multiset Nat) := by
    cases s.1.maps with
    | none => rfl
    | some q => rfl
  unfold Sq.deletes
  by_cases hz : 0 < s.1.nRed
  · obtain ⟨m, hm, hr⟩ := h.red hz
    obtain ⟨l, e, _, o⟩ := Mat.deletes_all hr
    rw [if_pos hz, hm]
    simp only [e]
    rw [ge]
    refine ⟨_, glost + gone, rfl, ?_, ?_⟩
    · rw [hml, go]
      show _ + m.own + _ + _ = _
      rw [← o, ← Multiset.coe_add, ← Multiset.coe_add]
      abel
    · have hc := h.cost
      rw [hm] at hc
      have hc : m.own.card + gone.card = _ := hc
      rw [card_own, hr] at hc
      rw [Multiset.card_add, gc, ← h.last, if_neg (by omega)]
      omega
  · rw [if_neg hz, ge]
    refine ⟨_, glost + matOwn s.1.red + gone, rfl, ?_, ?_⟩
    · rw [hml, go, List.nil_append, ← Multiset.coe_add]
      abel
    · have hc := h.cost
      rw [Multiset.card_add, Multiset.card_add, gc, ← h.last, if_pos (by omega)]
      omega

theorem sq_life (n : Nat) (ops : List SqOp) (h : H) {ph : Ph} (hp : (baseOps ops).foldlM (phStep n n) none = some ph) (hf : PhFine ph) :
    ∃ h' lost, Sq.life n ops h = .ok h' ∧ h'.live = lost + h.live ∧
      lost.card + (if redLast (reduces ops) = 0 then 0 else redLast (reduces ops) + 1) = phLost ph + ((reduces ops).map redCost).sum := by
  have := sinv_run ops (sinv_new n h)
  rw [hp] at this
  obtain ⟨s, gone, e, i⟩ := this
  rw [List.nil_append] at i
  obtain ⟨l, lost, d, o, c⟩ := sinv_deletes i hf
  refine ⟨⟨s.2.next, lost + h.live⟩, lost, ?_, rfl, c⟩
  unfold Sq.life
  rw [e]
  show s.1.delete s.2 = _
  unfold Sq.delete
  rw [d]
  show freeMany l s.2 = _
  refine freeMany_add l s.2 _ ?_
  have hl : s.2.live = s.1.gen.own + (matOwn s.1.red + mapsOwn s.1.maps + gone + h.live) := i.gen.live
  rw [hl, ← add_assoc (l : Multiset Nat), ← o]
  abel

theorem SInv.live {n : Nat} {base : Multiset Nat} {ph : Ph} {ms : List Nat} {s : Sq × H} {gone : Multiset Nat} (h : SInv n base ph ms s gone) :
    s.2.live = s.1.gen.own + (matOwn s.1.red + mapsOwn s.1.maps + gone + base) := h.gen.live

/-- Other objects allocate or free memory. -/
theorem SInv.other {n : Nat} {base base' : Multiset Nat} {ph : Ph} {ms : List Nat} {s : Sq × H} {gone : Multiset Nat} (h : SInv n base ph ms s gone) (h' : H)
    (e : h'.live = s.1.gen.own + (matOwn s.1.red + mapsOwn s.1.maps + gone + base')) : SInv n base' ph ms (s.1, h') gone := ⟨h.gen.other h' e, h.cost, h.last, h.red⟩

theorem sq_delete {n : Nat} {base : Multiset Nat} {ph : Ph} {ms : List Nat} {s : Sq × H} {gone : Multiset Nat} (h : SInv n base ph ms s gone) (hf : PhFine ph) :
    ∃ h' lost, s.1.delete s.2 = .ok h' ∧ h'.live = lost + base ∧ lost.card + (if redLast ms = 0 then 0 else redLast ms + 1) = phLost ph + (ms.map redCost).sum := by
  obtain ⟨l, lost, d, o, c⟩ := sinv_deletes h hf
  refine ⟨⟨s.2.next, lost + base⟩, lost, ?_, rfl, c⟩
  unfold Sq.delete
  rw [d]
  show freeMany l s.2 = _
  refine freeMany_add l s.2 _ ?_
  rw [h.live, ← add_assoc (l : Multiset Nat), ← o]
  abel

theorem ok_bind {ε α β : Type} (a : α) (f : α → Except ε β) : (Except.ok a).bind f = f a := rfl

/-- Memory of an update of FastSLAM. -/
theorem fast_update (n m k : Nat) (h : H) : ∃ h' lost, fastUpdate n m k h = .ok h' ∧ h'.live = lost + h.live ∧ lost.card = if m = 1 then 2 else 0 := by
  obtain ⟨gone, i1⟩ := sinv_reduce (sinv_new n h) m
  rw [List.nil_append] at i1
  set s1 := (Sq.new n h).1.reduce m (Sq.new n h).2 with hs1
  have e1 : [SqOp.reduce m].foldlM Sq.step (Sq.new n h) = .ok s1 := rfl
  have i2 : SInv n ({(new s1.2).1} + h.live) none [m] (s1.1, (new s1.2).2) gone := by
    refine i1.other _ ?_
    rw [new_live, i1.live]
    abel
  have i3 := sinv_reduced i2
  set s3 := s1.1.reduced (new s1.2).2 with hs3
  have e3 : Sq.step (s1.1, (new s1.2).2) .reduced = .ok s3 := rfl
  obtain ⟨r1, r2⟩ := newMat_spec s3.1.nRed s3.2
  obtain ⟨d1, d2⟩ := newMany_spec k (newMat s3.1.nRed s3.2).2
  set mu := newMat s3.1.nRed s3.2 with hmu
  set da := newMany k mu.2 with hda
  have hl3 := i3.live
  have hlive : da.2.live = {(new s1.2).1} + ((da.1 : Multiset Nat) + (mu.1.own + (s3.1.gen.own + (matOwn s3.1.red + mapsOwn s3.1.maps + gone + h.live)))) := by
    rw [d2, r2, hl3]
    abel
  obtain ⟨l, le, _, lo⟩ := Mat.deletes_all (m := mu.1) r1
  have hmem : (new s1.2).1 ∈ da.2.live := by rw [hlive]; simp
  have f1 : free da.2 (new s1.2).1 = .ok ⟨da.2.next, (da.1 : Multiset Nat) + (mu.1.own + (s3.1.gen.own + (matOwn s3.1.red + mapsOwn s3.1.maps + gone + h.live)))⟩ := by
    have := freeMany_add [(new s1.2).1] da.2 _ hlive
    rw [freeMany_cons] at this
    obtain ⟨h1, a, b⟩ := bind_ok_iff.1 this
    rw [a, ← Except.ok.inj b]
  have f2 := freeMany_add da.1 ⟨da.2.next, (da.1 : Multiset Nat) + (mu.1.own + (s3.1.gen.own + (matOwn s3.1.red + mapsOwn s3.1.maps + gone + h.live)))⟩ _ rfl
  have f3 := freeMany_add l ⟨da.2.next, mu.1.own + (s3.1.gen.own + (matOwn s3.1.red + mapsOwn s3.1.maps + gone + h.live))⟩ _ (by rw [← lo])
  have i4 : SInv n h.live none [m] (s3.1, ⟨da.2.next, s3.1.gen.own + (matOwn s3.1.red + mapsOwn s3.1.maps + gone + h.live)⟩) gone := i3.other _ rfl
  obtain ⟨h', lost, e, hl, hc⟩ := sq_delete i4 trivial
  refine ⟨h', lost, ?_, hl, ?_⟩
  · unfold fastUpdate
    rw [e1, ok_bind]
    dsimp only
    rw [e3, ok_bind, show murty s3.1.nRed s3.2 = mu from rfl, ← hda, f1, ok_bind, f2, ok_bind, le, ok_bind, f3, ok_bind]
    exact e
  · have hp : phLost none = 0 := rfl
    rw [hp] at hc
    by_cases h1 : m = 1
    · subst h1
      simpa [redLast, redCost] using hc
    · rw [if_neg h1]
      by_cases h0 : m = 0
      · subst h0
        simpa [redLast, redCost] using hc
      · simp [redLast, redCost, h0, h1] at hc
        simp [hc]

/-! ### BruteForceLinearAssignment -/

/-- The blocks of the object. -/
def Brute.own (b : Brute) : Multiset Nat := matOwn b.a + (b.s.toList : Multiset Nat)

/-- `a_` has `nAssignments_` rows. -/
def Brute.Ok (b : Brute) : Prop := ∀ m, b.a = some m → m.rows.length = b.n

theorem brute_deletes {b : Brute} (hb : b.Ok) : ∃ l, b.deletes = .ok l ∧ (l : Multiset Nat) = b.own ∧ (b.a ≠ none → l ≠ []) := by
  unfold Brute.deletes Brute.own
  cases ha : b.a with
  | none => exact ⟨_, rfl, by simp [matOwn], fun h => absurd rfl h⟩
  | some m =>
    obtain ⟨l, e, ne, o⟩ := Mat.deletes_all (hb m ha)
    simp only [e]
    exact ⟨_, rfl, by rw [← Multiset.coe_add, o]; rfl, fun _ => by simp [ne]⟩

theorem brute_run {b : Brute} (hb : b.Ok) {h : H} {base : Multiset Nat} (hl : h.live = b.own + base) (n : Nat) :
    ∃ b' h', b.run n h = .ok (b', h') ∧ b'.Ok ∧ b'.a ≠ none ∧ h'.live = b'.own + base := by
  obtain ⟨l, e, o, _⟩ := brute_deletes hb
  have hf := freeMany_add l h base (by rw [hl, o])
  unfold Brute.run
  rw [e]
  show ∃ b' h', (freeMany l h).bind _ = _ ∧ _
  rw [hf]
  obtain ⟨s1, s2⟩ := newMany_spec n ⟨h.next, base⟩
  have hx : free (new (newMany n ⟨h.next, base⟩).2).2 (new (newMany n ⟨h.next, base⟩).2).1 = .ok ⟨(newMany n ⟨h.next, base⟩).2.next + 1, (newMany n ⟨h.next, base⟩).2.live⟩ := by
    unfold free
    rw [if_pos (by simp [new])]
    simp [new]
  show ∃ b' h', (free (new (newMany n ⟨h.next, base⟩).2).2 (new (newMany n ⟨h.next, base⟩).2).1).map _ = _ ∧ _
  rw [hx]
  refine ⟨_, _, rfl, ?_, by simp, ?_⟩
  · intro m hm
    cases hm
    exact s1
  · rw [new_live, new_live, s2]
    unfold Brute.own matOwn Mat.own
    simp only [Option.toList_some, Multiset.coe_singleton]
    rw [← Multiset.singleton_add]
    abel

theorem brute_runs (ns : List Nat) : ∀ {b : Brute} {h : H} {base : Multiset Nat}, b.Ok → h.live = b.own + base →
    ∃ s, ns.foldlM (fun (s : Brute × H) n => s.1.run n s.2) (b, h) = .ok s ∧ s.1.Ok ∧ s.2.live = s.1.own + base ∧ (ns ≠ [] → s.1.a ≠ none) := by
  induction ns with
  | nil => exact fun hb hl => ⟨_, rfl, hb, hl, fun h => absurd rfl h⟩
  | cons n ns ih =>
    intro b h base hb hl
    rw [foldlM_cons_iff]
    obtain ⟨b', h', e, o, na, l⟩ := brute_run hb hl n
    obtain ⟨s, e2, o2, l2, n2⟩ := ih (base := base) o l
    refine ⟨s, ?_, o2, l2, fun _ => ?_⟩
    · show (b.run n h).bind _ = _
      rw [e]
      exact e2
    · cases ns with
      | nil =>
        have : s = (b', h') := (Except.ok.inj e2).symm
        rw [this]
        exact na
      | cons m ms => exact n2 (by simp)

theorem WF.of_run {b : Brute} {n : Nat} {h : H} {s : Brute × H} (w : WF h) (e : b.run n h = .ok s) : WF s.2 := by
  unfold Brute.run at e
  obtain ⟨l, _, e⟩ := bind_ok_iff.1 e
  obtain ⟨h1, e1, e⟩ := bind_ok_iff.1 e
  obtain ⟨h2, e2, rfl⟩ := map_ok_iff.1 e
  exact (((freeMany_le e1 w).1.newMany.new).free e2).new.new

theorem WF.of_runs {ns : List Nat} : ∀ {s s' : Brute × H}, WF s.2 → ns.foldlM (fun (s : Brute × H) n => s.1.run n s.2) s = .ok s' → WF s'.2 := by
  induction ns with
  | nil => intro s s' w e; cases e; exact w
  | cons n ns ih =>
    intro s s' w e
    rw [foldlM_cons_iff] at e
    obtain ⟨s1, e1, e2⟩ := bind_ok_iff.1 e
    exact ih (w.of_run e1) e2

end Heap
end RFS
