import Verif.Lemmas.SpatialIndex

/-! Lemmas about the spatial index tree: data that share a box lie in the same cell of the grid of smallest boxes. -/

set_option linter.unusedSectionVars false

namespace RFS
namespace SIT

variable {K : Type*} [Field K] [LinearOrder K] [IsStrictOrderedRing K] [FloorRing K] {D : Type*} {d : Nat} (I : Idx K D d)

/-- Same cell of the grid. -/
def Same (p q : Fin d → K) : Prop := ∀ j, ⌊p j / I.mn⌋ = ⌊q j / I.mn⌋

theorem same_of_box (hm : 0 < I.mn) (lo p : Fin d → K) (z : Fin d → ℤ) (hz : ∀ j, lo j = z j * I.mn) (hp : OffGrid I p) (h : inside lo I.mn p) (j : Fin d) : ⌊p j / I.mn⌋ = z j := by
  rw [Int.floor_eq_iff, le_div_iff₀ hm, div_lt_iff₀ hm]
  have h1 := h j
  rw [hz j] at h1
  refine ⟨h1.1, lt_of_le_of_ne (by linarith [h1.2]) ?_⟩
  have := hp j (z j + 1)
  push_cast at this
  exact this

theorem cell_self (hm : 0 < I.mn) (p q : Fin d → K) (h : Same I p q) : inside (smallestLo I p) I.mn q := by
  intro j
  unfold smallestLo
  rw [h j]
  have h1 := Int.floor_le (q j / I.mn)
  have h2 := Int.lt_floor_add_one (q j / I.mn)
  rw [le_div_iff₀ hm] at h1
  rw [div_lt_iff₀ hm] at h2
  constructor <;> linarith

theorem cell_same (hm : 0 < I.mn) (p q : Fin d → K) (hq : OffGrid I q) (h : inside (smallestLo I p) I.mn q) : Same I p q := by
  intro j
  exact (same_of_box I hm _ q (fun j => ⌊p j / I.mn⌋) (fun _ => rfl) hq h j).symm

/-- All data of a leaf lie in one cell. -/
def Fine : Tree K D d → Prop
  | .leaf _ _ data => ∀ y ∈ data, ∀ y' ∈ data, Same I (I.pos y) (I.pos y')
  | .node _ _ _ ch => ∀ i, Fine (ch i)

theorem fine_zero (hm : 0 < I.mn) (hoff : ∀ x, OffGrid I (I.pos x)) (lo : Fin d → K) (hg : OnGrid I lo) (data : List D) (h : WF I (.leaf lo 0 data)) : Fine I (.leaf lo 0 data) := by
  intro y hy y' hy' j
  choose z hz using hg
  have hsz : I.sz 0 = I.mn := by simp [Idx.sz]
  have h1 := h y hy
  have h2 := h y' hy'
  rw [hsz] at h1 h2
  rw [same_of_box I hm lo _ z hz (hoff y) h1 j, same_of_box I hm lo _ z hz (hoff y') h2 j]

theorem fine_append (x : D) (data : List D) (h : ∀ y ∈ data, ∀ y' ∈ data, Same I (I.pos y) (I.pos y')) (hx : ∀ y ∈ data, Same I (I.pos y) (I.pos x)) :
    ∀ y ∈ data ++ [x], ∀ y' ∈ data ++ [x], Same I (I.pos y) (I.pos y') := by
  intro y hy y' hy'
  rw [List.mem_append, List.mem_singleton] at hy hy'
  rcases hy with hy | rfl <;> rcases hy' with hy' | rfl
  · exact h y hy y' hy'
  · exact hx y hy
  · exact fun j => (hx y' hy' j).symm
  · exact fun j => rfl

theorem insertLeaf_fine (hm : 0 < I.mn) (hoff : ∀ x, OffGrid I (I.pos x)) (x : D) (k : Nat) : ∀ (lo : Fin d → K) (data : List D) (t : Tree K D d), OnGrid I lo →
    (∀ y ∈ data, inside lo (I.sz k) (I.pos y)) → inside lo (I.sz k) (I.pos x) → (∀ y ∈ data, ∀ y' ∈ data, Same I (I.pos y) (I.pos y')) →
    insertLeaf I x lo k data = some t → Fine I t := by
  induction k with
  | zero =>
    intro lo data t hg h1 h2 hf e
    obtain ⟨t', e', w, -⟩ := insertLeaf_spec I hm x 0 lo data h1 h2
    rw [e'] at e; cases e
    rw [insertLeaf] at e'; cases e'
    exact fine_zero I hm hoff lo hg _ w
  | succ k ih =>
    intro lo data t hg h1 h2 hf e
    cases data with
    | nil =>
      rw [insertLeaf] at e; cases e
      intro y hy y' hy'
      rw [List.mem_singleton] at hy hy'
      subst hy; subst hy'
      exact fun _ => rfl
    | cons y ys =>
      rw [insertLeaf] at e
      by_cases hs : inside (smallestLo I (I.pos y)) I.mn (I.pos x)
      · rw [if_pos hs] at e; cases e
        have hyx := cell_same I hm _ _ (hoff x) hs
        exact fine_append I x (y :: ys) hf fun y' hy' j => (hf y' hy' y (by simp) j).trans (hyx j)
      · rw [if_neg hs] at e
        obtain ⟨f, ef, f1, f2⟩ := distribute_spec I lo k (fun _ => []) (y :: ys) (fun _ => []) h1 (by simp)
        obtain ⟨c, ec, cin⟩ := firstInside_exists I lo k (branch I lo k fun _ => []) (branch_geom I lo k _) (I.pos x) h2
        have hsub : ∀ i, ∀ y' ∈ f i, y' ∈ y :: ys := by
          intro i y' hy'
          have : y' ∈ ∑ i, (f i : Multiset D) := Multiset.mem_sum.2 ⟨i, Finset.mem_univ i, hy'⟩
          rw [f2] at this
          simpa using this
        have hff : ∀ i, ∀ a ∈ f i, ∀ b ∈ f i, Same I (I.pos a) (I.pos b) := fun i a ha b hb => hf a (hsub i a ha) b (hsub i b hb)
        obtain ⟨t', et, -⟩ := insertLeaf_spec I hm x k (childLo lo (I.sz k) c) (f c) (f1 c) cin
        have hfine := ih (childLo lo (I.sz k) c) (f c) t' (onGrid_child I lo hg k c) (f1 c) cin (hff c) et
        rw [ef, ec] at e
        simp only [et, Option.map_some] at e
        cases e
        intro i
        by_cases hic : i = c
        · subst hic; rw [Function.update_self]; exact hfine
        · rw [Function.update_of_ne hic]; exact hff i

theorem insert_fine (hm : 0 < I.mn) (hoff : ∀ x, OffGrid I (I.pos x)) (x : D) (t : Tree K D d) : ∀ t', WF I t → OnGrid I t.lo → inside t.lo (I.sz t.level) (I.pos x) → Fine I t →
    insert I x t = some t' → Fine I t' := by
  induction t with
  | leaf lo k data => intro t' h hg hx hf e; exact insertLeaf_fine I hm hoff x k lo data t' hg h hx hf e
  | node lo k n ch ih =>
    intro t' h hg hx hf e
    obtain ⟨k', rfl, hn, hch⟩ := h
    obtain ⟨c, ec, cin⟩ := firstInside_exists I lo k' ch (fun i => ⟨(hch i).1, (hch i).2.1⟩) (I.pos x) hx
    have hx' : inside (ch c).lo (I.sz (ch c).level) (I.pos x) := by rw [(hch c).1, (hch c).2.1]; exact cin
    obtain ⟨t1, e1, -⟩ := insert_spec I hm x (ch c) (hch c).2.2 hx'
    have h1 := ih c t1 (hch c).2.2 (by rw [(hch c).2.1]; exact onGrid_child I lo hg k' c) hx' (hf c) e1
    rw [insert, ec] at e
    simp only [e1, Option.map_some] at e
    cases e
    intro i
    by_cases hic : i = c
    · subst hic; rw [Function.update_self]; exact h1
    · rw [Function.update_of_ne hic]; exact hf i

theorem rehang_fine (k : Nat) (s s' : (Fin (2 ^ d) → Tree K D d) × Nat) (old : Tree K D d) (hs : ∀ i, Fine I (s.1 i)) (ho : Fine I old)
    (e : rehang I k s.1 s.2 old = some s') : ∀ i, Fine I (s'.1 i) := by
  have hempty : ∀ (lo : Fin d → K) (k : Nat) (i : Fin (2 ^ d)), Fine I (branch I lo k (fun _ => ([] : List D)) i) := by
    intro lo k i y hy; simp at hy
  have hup : ∀ (f : Fin (2 ^ d) → Tree K D d) (c : Fin (2 ^ d)) (t : Tree K D d), (∀ i, Fine I (f i)) → Fine I t → ∀ i, Fine I (Function.update f c t i) := by
    intro f c t hf ht i
    by_cases hic : i = c
    · subst hic; rw [Function.update_self]; exact ht
    · rw [Function.update_of_ne hic]; exact hf i
  unfold rehang at e
  split at e
  · cases e; exact hs
  · split at e
    · cases e; exact hs
    · split at e
      · simp only at e
        split at e
        · cases e
          exact hup _ _ _ hs fun i => hempty _ _ i
        · cases e
          exact hup _ _ _ hs (hup _ _ _ (fun i => hempty _ _ i) ho)
      · exact absurd e (by simp)

theorem grow_fine (t t' : Tree K D d) (h : Fine I t) (e : grow I t = some t') : Fine I t' := by
  cases t with
  | leaf lo k data => exact absurd e (by simp [grow])
  | node lo k n ch =>
    rw [grow] at e
    simp only [Option.map_eq_some_iff] at e
    obtain ⟨s', e, rfl⟩ := e
    have key : ∀ (l : List (Fin (2 ^ d))) (s : (Fin (2 ^ d) → Tree K D d) × Nat), (∀ i, Fine I (s.1 i)) →
        l.foldlM (fun s i => rehang I k s.1 s.2 (ch i)) s = some s' → ∀ i, Fine I (s'.1 i) := by
      intro l
      induction l with
      | nil => intro s hs e; cases e; exact hs
      | cons i l ih =>
        intro s hs e
        rw [List.foldlM_cons] at e
        obtain ⟨s1, e1, e2⟩ := Option.bind_eq_some_iff.1 e
        exact ih s1 (rehang_fine I k s s1 (ch i) hs (h i) e1) e2
    refine key _ _ ?_ e
    intro i y hy
    simp at hy

theorem addData_fine (hm : 0 < I.mn) (hoff : ∀ x, OffGrid I (I.pos x)) (fuel : Nat) : ∀ (t t' : Tree K D d) (x : D), Root I t → Fine I t → addData I fuel t x = some t' → Fine I t' := by
  induction fuel with
  | zero => intro t t' x _ _ h; simp [addData] at h
  | succ fuel ih =>
    intro t t' x hr hf h
    rw [addData] at h
    split at h
    · rename_i hin
      exact insert_fine I hm hoff x t t' hr.1 (root_onGrid I t hr) hin hf h
    · obtain ⟨t2, e, r2, -, -⟩ := grow_spec I hm t hr
      rw [e] at h
      exact ih t2 t' x r2 (grow_fine I t t2 hf e) h

theorem removeRec_fine [DecidableEq D] (x : D) (t : Tree K D d) : ∀ isRoot r, Fine I t → removeRec I x t isRoot = some r → Fine I r.2.1 := by
  induction t with
  | leaf lo k data =>
    intro isRoot r hf e
    rw [removeRec] at e
    by_cases hmem : x ∈ data
    · rw [if_pos hmem] at e; cases e
      have hsub : ∀ y ∈ eraseData data x, y ∈ data := by
        intro y hy
        have : y ∈ ((eraseData data x : List D) : Multiset D) := hy
        rw [eraseData_perm data x hmem] at this
        exact Multiset.mem_of_mem_erase this
      exact fun y hy y' hy' => hf y (hsub y hy) y' (hsub y' hy')
    · rw [if_neg hmem] at e; cases e; exact hf
  | node lo k n ch ih =>
    intro isRoot r hf e
    rw [removeRec] at e
    split at e
    · exact absurd e (by simp)
    · rename_i c hc
      split at e
      · exact absurd e (by simp)
      · rename_i found t1 check e1
        have h1 := ih c false _ (hf c) e1
        have hup : ∀ i, Fine I (Function.update ch c t1 i) := by
          intro i
          by_cases hic : i = c
          · subst hic; rw [Function.update_self]; exact h1
          · rw [Function.update_of_ne hic]; exact hf i
        simp only at e
        split at e
        · split at e
          · rename_i l hl
            cases e
            unfold onlyChild at hl
            split at hl
            · rename_i hall
              split at hl
              · rename_i i hfi
                cases hl
                have hleaf := List.all_eq_true.1 hall i (List.mem_finRange i)
                have hi := hup i
                cases hc : Function.update ch c t1 i with
                | leaf lo' k' l' => rw [hc] at hi; exact hi
                | node => rw [hc] at hleaf; simp [Tree.isLeaf] at hleaf
              · exact absurd hl (by simp)
            · exact absurd hl (by simp)
          · cases e; exact hup
        · cases e; exact hup

/-- `Box t b`: `b` is one of the boxes of the tree `t`. -/
inductive Box : Tree K D d → Tree K D d → Prop
  | here (t : Tree K D d) : Box t t
  | child (lo : Fin d → K) (k n : Nat) (ch : Fin (2 ^ d) → Tree K D d) (i : Fin (2 ^ d)) (b : Tree K D d) (h : Box (ch i) b) : Box (.node lo k n ch) b

theorem fine_box (t b : Tree K D d) (h : Box t b) (hf : Fine I t) : Fine I b := by
  induction h with
  | here t => exact hf
  | child lo k n ch i b h ih => exact ih (hf i)

theorem box_mem (t b : Tree K D d) (h : Box t b) (y : D) (hy : y ∈ items b) : y ∈ items t := by
  induction h with
  | here t => exact hy
  | child lo k n ch i b h ih => exact mem_items_node.2 ⟨i, ih hy⟩

/-- A point of the same cell lies in the same boxes. -/
theorem inside_same (hm : 0 < I.mn) (lo : Fin d → K) (hg : OnGrid I lo) (k : Nat) (p q : Fin d → K) (hs : Same I p q) (hp : OffGrid I p) (h : inside lo (I.sz k) p) : inside lo (I.sz k) q := by
  intro j
  obtain ⟨z, hz⟩ := hg j
  have h1 := int_of_offGrid I lo hg k p hp h j
  have e : lo j + I.sz k = ((z + 2 ^ k : ℤ) : K) * I.mn := by rw [hz]; unfold Idx.sz; push_cast; ring
  rw [e] at h1 ⊢
  rw [hz] at h1 ⊢
  rw [← lt_div_iff₀ hm, ← div_lt_iff₀ hm] at h1
  rw [← le_div_iff₀ hm, ← div_le_iff₀ hm]
  have h2 : z ≤ ⌊p j / I.mn⌋ := Int.le_floor.2 h1.1.le
  have h3 : ⌊p j / I.mn⌋ < z + 2 ^ k := Int.floor_lt.2 h1.2
  rw [hs j] at h2 h3
  exact ⟨Int.le_floor.1 h2, (Int.floor_lt.1 h3).le⟩

theorem insertLeaf_shared (hm : 0 < I.mn) (x y : D) (lo : Fin d → K) (k : Nat) (data : List D) (hy : y ∈ data) (hf : ∀ y ∈ data, ∀ y' ∈ data, Same I (I.pos y) (I.pos y'))
    (hs : Same I (I.pos y) (I.pos x)) : insertLeaf I x lo k data = some (.leaf lo k (data ++ [x])) := by
  cases k with
  | zero => rw [insertLeaf]
  | succ k =>
    cases data with
    | nil => simp at hy
    | cons y0 ys =>
      rw [insertLeaf, if_pos (cell_self I hm _ _ fun j => (hf y0 (by simp) y hy j).trans (hs j))]

theorem insert_shared (hm : 0 < I.mn) (hoff : ∀ x, OffGrid I (I.pos x)) (x y : D) (hs : Same I (I.pos y) (I.pos x)) (lo : Fin d → K) (k : Nat) (data : List D) (hy : y ∈ data)
    (t : Tree K D d) (hb : Box t (.leaf lo k data)) : WF I t → OnGrid I t.lo → Fine I t → ∃ t', insert I x t = some t' ∧ Box t' (.leaf lo k (data ++ [x])) := by
  generalize hB : (Tree.leaf lo k data : Tree K D d) = B at hb
  induction hb with
  | here t =>
    subst hB
    intro hw hg hf
    exact ⟨_, insertLeaf_shared I hm x y lo k data hy hf hs, Box.here _⟩
  | child lo' k0 n ch i b h ih =>
    subst hB
    intro hw hg hf
    have hw' := hw
    obtain ⟨k', rfl, hn, hch⟩ := hw
    have hgi : OnGrid I (childLo lo' (I.sz k') i) := onGrid_child I lo' hg k' i
    have hyi : y ∈ items (ch i) := box_mem _ _ h y hy
    have hin := inside_of_mem I hm _ (hch i).2.2 y hyi
    rw [(hch i).1, (hch i).2.1] at hin
    have hxi : inside (childLo lo' (I.sz k') i) (I.sz k') (I.pos x) := inside_same I hm _ hgi k' _ _ hs (hoff y) hin
    obtain ⟨c, ec, cin⟩ := firstInside_exists I lo' k' ch (fun i => ⟨(hch i).1, (hch i).2.1⟩) (I.pos x) (inside_child I hm lo' k' i _ hxi)
    have hci : c = i := sep lo' (I.sz k') c i _ cin (int_of_offGrid I _ hgi k' _ (hoff x) hxi)
    subst hci
    obtain ⟨t1, e1, b1⟩ := ih rfl (hch c).2.2 (by rw [(hch c).2.1]; exact hgi) (hf c)
    refine ⟨.node lo' (k' + 1) (n + 1) (Function.update ch c t1), by rw [insert, ec]; simp only [e1, Option.map_some], Box.child _ _ _ _ c _ ?_⟩
    rw [Function.update_self]
    exact b1

end SIT
end RFS
