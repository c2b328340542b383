import Verif.Model.Hungarian
import Mathlib.Tactic.Linarith
import Mathlib.Tactic.NormNum
import Mathlib.Data.List.Nodup
import Mathlib.Data.Fintype.Sum
import Mathlib.Data.Fintype.Card

namespace RFS
namespace Hungarian

variable {K : Type*} [Field K] [LinearOrder K] {n : Nat}

/-- The two match arrays describe the same partial matching. -/
def Consistent (xy yx : Fin n → Option (Fin n)) : Prop := ∀ x y, xy x = some y ↔ yx y = some x

/-- Vertices of the alternating tree, as seen by the search. -/
inductive Reach (C : Mat K n) (c : Core K n) (S : Fin n → Bool) (root : Fin n) : Fin n → Prop where
  | root : Reach C c S root root
  | step {x y x'} : Reach C c S root x → |sl C c x y| < tolE → c.xy x ≠ some y → c.yx y = some x' → S x' = true →
      |sl C c x' y| < tolE → Reach C c S root x'

/-- Parent pointers form a path to the root; the list collects the Y vertices on it. -/
inductive PathX (C : Mat K n) (c : Core K n) (b : Bfs n) (root : Fin n) : Fin n → List (Fin n) → Prop where
  | root : PathX C c b root root []
  | step {x y x' ys} : PathX C c b root x ys → y ∉ ys → b.py y = some x → |sl C c x y| < tolE → c.xy x ≠ some y →
      b.px x' = some y → c.yx y = some x' → x' ≠ root → PathX C c b root x' (y :: ys)

/-- Search invariant; `done` are the vertices already expanded. -/
structure BInv (C : Mat K n) (c : Core K n) (S : Fin n → Bool) (root : Fin n) (b : Bfs n)
    (done : List (Fin n ⊕ Fin n)) : Prop where
  nodup : (done ++ b.queue).Nodup
  markX : ∀ x, b.xq x = true ↔ Sum.inl x ∈ done ++ b.queue
  markY : ∀ y, b.yq y = true ↔ Sum.inr y ∈ done ++ b.queue
  rootQ : b.xq root = true
  pxq : ∀ x y, b.px x = some y → b.xq x = true
  pathX : ∀ x, b.xq x = true → ∃ ys, PathX C c b root x ys ∧ ∀ y ∈ ys, b.yq y = true
  pathY : ∀ y, b.yq y = true → ∃ x ys, b.py y = some x ∧ |sl C c x y| < tolE ∧ c.xy x ≠ some y ∧
    PathX C c b root x ys ∧ y ∉ ys ∧ ∀ y' ∈ ys, b.yq y' = true
  clX : ∀ x, Sum.inl x ∈ done → ∀ y, |sl C c x y| < tolE → c.xy x ≠ some y → b.yq y = true
  clY : ∀ y, Sum.inr y ∈ done → ∀ x, |sl C c x y| < tolE → S x = true → c.yx y = some x → b.xq x = true

theorem PathX.mono {C : Mat K n} {c : Core K n} {b b' : Bfs n} {root x : Fin n} {ys : List (Fin n)}
    (h : PathX C c b root x ys) (hp : ∀ y ∈ ys, b'.py y = b.py y) (hx : ∀ x' y, b.px x' = some y → b'.px x' = some y) :
    PathX C c b' root x ys := by
  induction h with
  | root => exact .root
  | @step x y x' ys h1 h2 h3 h4 h5 h6 h7 h8 ih =>
    exact .step (ih fun y hy => hp y (List.mem_cons_of_mem _ hy)) h2
      (by rw [hp y List.mem_cons_self]; exact h3) h4 h5 (hx _ _ h6) h7 h8

theorem binv_init (C : Mat K n) (c : Core K n) (S : Fin n → Bool) (root : Fin n) :
    BInv C c S root (bfsInit root) [] where
  nodup := by simp [bfsInit]
  markX := by simp [bfsInit]
  markY := by simp [bfsInit]
  rootQ := by simp [bfsInit]
  pxq := by simp [bfsInit]
  pathX := by
    intro x hx
    simp [bfsInit] at hx
    subst hx
    exact ⟨[], .root, by simp⟩
  pathY := by simp [bfsInit]
  clX := by simp
  clY := by simp

theorem binv_stepX {C : Mat K n} {c : Core K n} {S : Fin n → Bool} {root : Fin n} {b : Bfs n}
    {done : List (Fin n ⊕ Fin n)} (h : BInv C c S root b done) (x : Fin n) (rest : List (Fin n ⊕ Fin n))
    (hq : b.queue = Sum.inl x :: rest) :
    BInv C c S root (expandX C c b x rest) (done ++ [Sum.inl x]) := by
  have hmem : ∀ y, y ∈ childrenX C c b x ↔ |sl C c x y| < tolE ∧ b.yq y = false ∧ c.xy x ≠ some y := by
    intro y; simp [childrenX, and_assoc]
  have hnd : (childrenX C c b x).Nodup := (List.nodup_finRange n).filter _
  have hxq : b.xq x = true := (h.markX x).2 (by simp [hq])
  have hnewpy : ∀ y, b.yq y = true → (expandX C c b x rest).py y = b.py y := by
    intro y hy
    show (if y ∈ childrenX C c b x then some x else b.py y) = b.py y
    rw [if_neg]; intro hc; rw [hmem] at hc; simp [hy] at hc
  have hmonoX : ∀ x' ys, PathX C c b root x' ys → (∀ y ∈ ys, b.yq y = true) →
      PathX C c (expandX C c b x rest) root x' ys := by
    intro x' ys hp hy
    exact hp.mono (fun y hyy => hnewpy y (hy y hyy)) (fun _ _ => id)
  have hyq : ∀ y, (expandX C c b x rest).yq y = true ↔ b.yq y = true ∨ y ∈ childrenX C c b x := by
    intro y; simp [expandX]
  have hperm : done ++ [Sum.inl x] ++ (expandX C c b x rest).queue
        = (done ++ b.queue) ++ (childrenX C c b x).map Sum.inr := by simp [expandX, hq]
  constructor
  · rw [hperm, List.nodup_append]
    refine ⟨h.nodup, hnd.map Sum.inr_injective, ?_⟩
    intro a ha b' hb' heq
    rw [List.mem_map] at hb'
    obtain ⟨y, hy, rfl⟩ := hb'
    subst heq
    have := (h.markY y).2 ha
    rw [hmem] at hy
    simp [this] at hy
  · intro x'
    rw [hperm, show (expandX C c b x rest).xq x' = b.xq x' from rfl, h.markX x']
    simp
  · intro y
    rw [hperm, hyq, h.markY y]
    simp [or_assoc]
  · exact h.rootQ
  · exact h.pxq
  · intro x' hx'
    obtain ⟨ys, h1, h2⟩ := h.pathX x' hx'
    exact ⟨ys, hmonoX _ _ h1 h2, fun y hy => (hyq y).2 (Or.inl (h2 y hy))⟩
  · intro y hy
    by_cases hyn : y ∈ childrenX C c b x
    · obtain ⟨ys, h1, h2⟩ := h.pathX x hxq
      have hy' := (hmem y).1 hyn
      refine ⟨x, ys, by simp [expandX, hyn], hy'.1, hy'.2.2, hmonoX _ _ h1 h2, ?_,
        fun y hy => (hyq y).2 (Or.inl (h2 y hy))⟩
      intro hc
      have := h2 y hc
      simp [hy'.2.1] at this
    · have hyo : b.yq y = true := by rw [hyq] at hy; tauto
      obtain ⟨x', ys, h1, h2, h3, h4, h5, h6⟩ := h.pathY y hyo
      exact ⟨x', ys, by rw [hnewpy y hyo]; exact h1, h2, h3, hmonoX _ _ h4 h6, h5,
        fun y hy => (hyq y).2 (Or.inl (h6 y hy))⟩
  · intro x' hx' y h1 h2
    rw [hyq]
    rw [List.mem_append, List.mem_singleton] at hx'
    rcases hx' with hx' | hx'
    · exact Or.inl (h.clX x' hx' y h1 h2)
    · cases hx'
      by_cases hc : b.yq y = true
      · exact Or.inl hc
      · exact Or.inr ((hmem y).2 ⟨h1, by simpa using hc, h2⟩)
  · intro y hy x' h1 h2 h3
    have hy' : Sum.inr y ∈ done := by simpa using hy
    exact h.clY y hy' x' h1 h2 h3

theorem binv_stepY {C : Mat K n} {c : Core K n} {S : Fin n → Bool} {root : Fin n} {b : Bfs n}
    {done : List (Fin n ⊕ Fin n)} (h : BInv C c S root b done) (y : Fin n) (rest : List (Fin n ⊕ Fin n))
    (hq : b.queue = Sum.inr y :: rest) :
    BInv C c S root (expandY C c S b y rest) (done ++ [Sum.inr y]) := by
  have hmem : ∀ x, x ∈ childrenY C c S b y ↔
      |sl C c x y| < tolE ∧ S x = true ∧ b.xq x = false ∧ c.yx y = some x := by
    intro x; simp [childrenY, and_assoc]
  have hnd : (childrenY C c S b y).Nodup := (List.nodup_finRange n).filter _
  have hyq : b.yq y = true := (h.markY y).2 (by simp [hq])
  have hnewpx : ∀ x, b.xq x = true → (expandY C c S b y rest).px x = b.px x := by
    intro x hx
    show (if x ∈ childrenY C c S b y then some y else b.px x) = b.px x
    rw [if_neg]; intro hc; rw [hmem] at hc; simp [hx] at hc
  have hxq : ∀ x, (expandY C c S b y rest).xq x = true ↔ b.xq x = true ∨ x ∈ childrenY C c S b y := by
    intro x; simp [expandY]
  have hmonoX : ∀ x' ys, PathX C c b root x' ys → PathX C c (expandY C c S b y rest) root x' ys := by
    intro x' ys hp
    exact hp.mono (fun _ _ => rfl) (fun x0 y0 h0 => by rw [hnewpx x0 (h.pxq x0 y0 h0)]; exact h0)
  have hperm : done ++ [Sum.inr y] ++ (expandY C c S b y rest).queue
        = (done ++ b.queue) ++ (childrenY C c S b y).map Sum.inl := by simp [expandY, hq]
  constructor
  · rw [hperm, List.nodup_append]
    refine ⟨h.nodup, hnd.map Sum.inl_injective, ?_⟩
    intro a ha b' hb' heq
    rw [List.mem_map] at hb'
    obtain ⟨x, hx, rfl⟩ := hb'
    subst heq
    have := (h.markX x).2 ha
    rw [hmem] at hx
    simp [this] at hx
  · intro x
    rw [hperm, hxq, h.markX x]
    simp [or_assoc]
  · intro y'
    rw [hperm, show (expandY C c S b y rest).yq y' = b.yq y' from rfl, h.markY y']
    simp
  · exact (hxq root).2 (Or.inl h.rootQ)
  · intro x y' hxy
    rw [hxq]
    by_cases hxn : x ∈ childrenY C c S b y
    · exact Or.inr hxn
    · left
      have : (expandY C c S b y rest).px x = b.px x := by simp [expandY, hxn]
      rw [this] at hxy
      exact h.pxq x y' hxy
  · intro x hx
    by_cases hxn : x ∈ childrenY C c S b y
    · obtain ⟨x0, ys, h1, h2, h3, h4, h5, h6⟩ := h.pathY y hyq
      have hx' := (hmem x).1 hxn
      refine ⟨y :: ys, .step (hmonoX _ _ h4) h5 h1 h2 h3 (by simp [expandY, hxn]) hx'.2.2.2 ?_, ?_⟩
      · rintro rfl
        have := h.rootQ
        simp [hx'.2.2.1] at this
      · intro y' hy'
        rcases List.mem_cons.1 hy' with rfl | hy'
        · exact hyq
        · exact h6 y' hy'
    · have hxo : b.xq x = true := by rw [hxq] at hx; tauto
      obtain ⟨ys, h1, h2⟩ := h.pathX x hxo
      exact ⟨ys, hmonoX _ _ h1, h2⟩
  · intro y' hy'
    obtain ⟨x', ys, h1, h2, h3, h4, h5, h6⟩ := h.pathY y' hy'
    exact ⟨x', ys, h1, h2, h3, hmonoX _ _ h4, h5, h6⟩
  · intro x hx y' h1 h2
    have hx' : Sum.inl x ∈ done := by simpa using hx
    exact h.clX x hx' y' h1 h2
  · intro y' hy' x h1 h2 h3
    rw [hxq]
    rw [List.mem_append, List.mem_singleton] at hy'
    rcases hy' with hy' | hy'
    · exact Or.inl (h.clY y' hy' x h1 h2 h3)
    · cases hy'
      by_cases hc : b.xq x = true
      · exact Or.inl hc
      · exact Or.inr ((hmem x).2 ⟨h1, h2, by simpa using hc, h3⟩)

theorem bfs_spec {C : Mat K n} {c : Core K n} {S : Fin n → Bool} {root target : Fin n}
    (hr : ∃ x, Reach C c S root x ∧ |sl C c x target| < tolE ∧ c.xy x ≠ some target) :
    ∀ (fuel : Nat) (b : Bfs n) (done : List (Fin n ⊕ Fin n)), BInv C c S root b done → Sum.inr target ∉ done →
      2 * n + 1 ≤ fuel + done.length →
      ∃ b' done', bfs C c S target fuel b = some (some b') ∧ BInv C c S root b' done' ∧ b'.yq target = true := by
  intro fuel
  induction fuel with
  | zero =>
    intro b done h ht hf
    exfalso
    have h1 : done.Nodup := h.nodup.of_append_left
    have h2 := h1.length_le_card
    simp at h2
    omega
  | succ fuel ih =>
    intro b done h ht hf
    unfold bfs
    split
    · -- empty queue: everything reachable has been expanded
      rename_i hq
      exfalso
      have hall : ∀ x, Reach C c S root x → Sum.inl x ∈ done := by
        intro x hx
        have hd : ∀ v, v ∈ done ++ b.queue ↔ v ∈ done := by simp [hq]
        induction hx with
        | root => rw [← hd, ← h.markX]; exact h.rootQ
        | step _ h1 h2 h3 h4 h5 ih2 =>
          have hy := h.clX _ ih2 _ h1 h2
          rw [h.markY, hd] at hy
          have hx' := h.clY _ hy _ h5 h4 h3
          rwa [h.markX, hd] at hx'
      obtain ⟨x, h1, h2, h3⟩ := hr
      have hy := h.clX _ (hall x h1) _ h2 h3
      rw [h.markY] at hy
      simp [hq] at hy
      exact ht hy
    · rename_i v rest hq
      split
      · rename_i hv
        exact ⟨b, done, rfl, h, (h.markY target).2 (by simp [hq, hv])⟩
      · rename_i hv
        split
        · rename_i x
          apply ih _ _ (binv_stepX h x rest hq)
          · simp [ht]
          · simp; omega
        · rename_i y
          apply ih _ _ (binv_stepY h y rest hq)
          · simp only [List.mem_append, List.mem_singleton, ht, false_or]
            exact fun hc => hv hc.symm
          · simp; omega

theorem consistent_match_free {xy yx : Fin n → Option (Fin n)} {x t : Fin n}
    (h : Consistent xy (Function.update yx t none)) (hx : xy x = none) :
    Consistent (Function.update xy x (some t)) (Function.update yx t (some x)) := by
  intro x' y
  have h1 := h x' y
  have h2 := h x' t
  have h3 := h x y
  by_cases e1 : x' = x <;> by_cases e2 : y = t <;> simp_all [Function.update_apply, eq_comm]

theorem consistent_match_move {xy yx : Fin n → Option (Fin n)} {x t t' : Fin n}
    (h : Consistent xy (Function.update yx t none)) (hx : xy x = some t') (ht : t' ≠ t) :
    Consistent (Function.update xy x (some t)) (Function.update (Function.update yx t (some x)) t' none) := by
  intro x' y
  have h1 := h x' y
  have h2 := h x' t
  have h3 := h x y
  have h4 := h x' t'
  have h5 := h x t'
  by_cases e1 : x' = x <;> by_cases e2 : y = t <;> by_cases e3 : y = t' <;>
    simp_all [Function.update_apply, eq_comm]

theorem PathX.root_or {C : Mat K n} {c : Core K n} {b : Bfs n} {root x : Fin n} {ys : List (Fin n)}
    (h : PathX C c b root x ys) : x = root ∨ ∃ y ∈ ys, c.yx y = some x := by
  cases h with
  | root => exact Or.inl rfl
  | step _ _ _ _ _ _ h7 _ => exact Or.inr ⟨_, List.mem_cons_self, h7⟩

theorem PathX.nodup {C : Mat K n} {c : Core K n} {b : Bfs n} {root x : Fin n} {ys : List (Fin n)}
    (h : PathX C c b root x ys) : ys.Nodup := by
  induction h with
  | root => simp
  | step _ h2 _ _ _ _ _ _ ih => exact List.nodup_cons.2 ⟨h2, ih⟩

/-- Effect of the augmentation on the matching. `c0` holds the arrays before the augmentation started; in the
current arrays `c`, the vertex `t` counts as free. -/
theorem augment_spec {C : Mat K n} {c0 : Core K n} {root : Fin n} {b : Bfs n} (h0 : Consistent c0.xy c0.yx)
    (hroot : c0.xy root = none) {x : Fin n} {ys : List (Fin n)} (hp : PathX C c0 b root x ys) :
    ∀ (fuel : Nat) (c : Core K n) (t : Fin n), ys.length < fuel → t ∉ ys → b.py t = some x →
      |sl C c0 x t| < tolE → c0.xy x ≠ some t → c.lx = c0.lx → c.ly = c0.ly →
      Consistent c.xy (Function.update c.yx t none) →
      (∀ y ∈ ys, ∀ x', c0.yx y = some x' → c.xy x' = c0.xy x') →
      (c.xy root = none) →
      (∀ x' y, c.xy x' = some y → |sl C c0 x' y| < tolE) →
      ∃ c', augment root b fuel c t = some c' ∧ c'.lx = c0.lx ∧ c'.ly = c0.ly ∧ Consistent c'.xy c'.yx ∧
        (∀ x' y, c'.xy x' = some y → |sl C c0 x' y| < tolE) ∧
        (∀ x', (c'.xy x').isSome = true ↔ (x' = root ∨ (c.xy x').isSome = true)) := by
  induction hp with
  | root =>
    intro fuel c t hf ht hpy htight hne hlx hly hc hpath hr hall
    obtain ⟨fuel, rfl⟩ : ∃ k, fuel = k + 1 := ⟨fuel - 1, by omega⟩
    refine ⟨{ c with xy := Function.update c.xy root (some t), yx := Function.update c.yx t (some root) },
      by simp only [augment, hpy, if_true], hlx, hly, consistent_match_free hc hr, ?_, ?_⟩
    · intro x' y hxy
      by_cases e : x' = root
      · subst e
        simp at hxy; subst hxy; exact htight
      · simp [Function.update_apply, e] at hxy; exact hall _ _ hxy
    · intro x'
      by_cases e : x' = root
      · subst e; simp
      · simp [Function.update_apply, e]
  | @step x0 y0 x1 ys0 hp h2 h3 h4 h5 h6 h7 h8 ih =>
    intro fuel c t hf ht hpy htight hne hlx hly hc hpath hr hall
    obtain ⟨fuel, rfl⟩ : ∃ k, fuel = k + 1 := ⟨fuel - 1, by omega⟩
    have hx1 : c0.xy x1 = some y0 := (h0 x1 y0).2 h7
    have hcx1 : c.xy x1 = some y0 := by
      rw [hpath y0 List.mem_cons_self x1 h7]; exact hx1
    have ht0 : y0 ≠ t := by
      rintro rfl; exact ht List.mem_cons_self
    obtain ⟨c', e1, e2, e3, e4, e5, e6⟩ := ih fuel
      { c with xy := Function.update c.xy x1 (some t), yx := Function.update c.yx t (some x1) } y0
      (by simp at hf; omega) h2 h3 h4 h5 hlx hly (consistent_match_move hc hcx1 ht0) (by
        intro y hy x' hyx
        have hne1 : x' ≠ x1 := by
          rintro rfl
          have := (h0 x' y).2 hyx
          rw [hx1] at this; cases this
          exact h2 hy
        simp only [Function.update_apply, if_neg hne1]
        exact hpath y (List.mem_cons_of_mem _ hy) x' hyx) (by
        simp only [Function.update_apply]
        rw [if_neg (Ne.symm h8)]; exact hr) (by
        intro x' y hxy
        by_cases e : x' = x1
        · subst e
          simp at hxy; subst hxy; exact htight
        · simp [Function.update_apply, e] at hxy; exact hall _ _ hxy)
    refine ⟨c', ?_, e2, e3, e4, e5, ?_⟩
    · simp only [augment, hpy, if_neg h8, h6]; exact e1
    · intro x'
      rw [e6]
      by_cases e : x' = x1
      · subst e; simp [hcx1]
      · simp [Function.update_apply, e]

/-- Search and augmentation together: the free target gets matched, the root gets matched, nothing else is unmatched. -/
theorem search_augment {C : Mat K n} {c : Core K n} {S : Fin n → Bool} {root target : Fin n}
    (hr : ∃ x, Reach C c S root x ∧ |sl C c x target| < tolE ∧ c.xy x ≠ some target)
    (h0 : Consistent c.xy c.yx) (hroot : c.xy root = none) (ht : c.yx target = none)
    (htight : ∀ x' y, c.xy x' = some y → |sl C c x' y| < tolE) :
    ∃ b c', bfs C c S target (2 * n + 1) (bfsInit root) = some (some b) ∧
      augment root b (n + 1) c target = some c' ∧ c'.lx = c.lx ∧ c'.ly = c.ly ∧ Consistent c'.xy c'.yx ∧
        (∀ x' y, c'.xy x' = some y → |sl C c x' y| < tolE) ∧
        (∀ x', (c'.xy x').isSome = true ↔ (x' = root ∨ (c.xy x').isSome = true)) := by
  obtain ⟨b, done, e1, hb, hy⟩ := bfs_spec hr (2 * n + 1) (bfsInit root) [] (binv_init C c S root) (by simp) (by simp)
  obtain ⟨x, ys, h1, h2, h3, h4, h5, h6⟩ := hb.pathY target hy
  have hlen : ys.length < n + 1 := by
    have := h4.nodup.length_le_card
    simp at this; omega
  obtain ⟨c', g⟩ := augment_spec h0 hroot h4 (n + 1) c target hlen h5 h1 h2 h3 rfl rfl (by
      have : Function.update c.yx target none = c.yx := by
        funext y; by_cases e : y = target
        · subst e; simp [ht]
        · simp [Function.update_apply, e]
      rw [this]; exact h0) (fun _ _ _ _ => rfl) hroot htight
  exact ⟨b, c', e1, g⟩

end Hungarian
end RFS
