import Verif.Lemmas.HungarianTree

set_option linter.unusedSectionVars false

namespace RFS
namespace Hungarian

variable {K : Type*} [Field K] [LinearOrder K] [IsStrictOrderedRing K] {n : Nat}

/-! ### Termination and correctness of the loop -/

/-- Number of unmatched rows. -/
def freeCount (c : Core K n) : Nat := (Finset.univ.filter fun x => (c.xy x).isSome = false).card

/-- Number of columns outside the tree. -/
def remCount (t : Tree K n) : Nat := (Finset.univ.filter fun y => t.T y = false).card

/-- Termination measure of the loop. -/
def mu (c : Core K n) : Option (Tree K n) → Nat
  | none => freeCount c * (n + 1)
  | some t => (freeCount c - 1) * (n + 1) + remCount t + 1

theorem freeCount_augment {c c' : Core K n} {r : Fin n} (hr : c.xy r = none)
    (h : ∀ x, (c'.xy x).isSome = true ↔ (x = r ∨ (c.xy x).isSome = true)) : freeCount c' + 1 = freeCount c := by
  have e : (Finset.univ.filter fun x => (c.xy x).isSome = false)
      = insert r (Finset.univ.filter fun x => (c'.xy x).isSome = false) := by
    ext x
    have hx := h x
    by_cases e : x = r
    · subst e; simp [hr]
    · have h1 : (c'.xy x).isSome = (c.xy x).isSome := by
        rw [Bool.eq_iff_iff, hx]; simp [e]
      simp only [Finset.mem_filter, Finset.mem_univ, true_and, Finset.mem_insert, e, false_or, h1]
  unfold freeCount
  rw [e, Finset.card_insert_of_notMem]
  have := (h r).2 (Or.inl rfl)
  simp only [Finset.mem_filter, Finset.mem_univ, true_and, this]
  decide

theorem remCount_grow {t t' : Tree K n} {y : Fin n} (hy : t.T y = false) (h : t'.T = Function.update t.T y true) :
    remCount t' + 1 = remCount t := by
  have e : (Finset.univ.filter fun x => t.T x = false)
      = insert y (Finset.univ.filter fun x => t'.T x = false) := by
    ext x
    rw [h]
    by_cases e : x = y
    · subst e; simp [hy]
    · simp [e]
  unfold remCount
  rw [e, Finset.card_insert_of_notMem]
  rw [h]; simp

theorem step34_spec {C : Mat K n} {c : Core K n} {t : Tree K n} (hc : CInv C c) (ht : TInv C c t) :
    (∃ c', step34 C c t = .cont c' none ∧ CInv C c' ∧ freeCount c' + 1 = freeCount c) ∨
    (∃ c' t', step34 C c t = .cont c' (some t') ∧ CInv C c' ∧ TInv C c' t' ∧ freeCount c' = freeCount c ∧
      remCount t' + 1 = remCount t) := by
  obtain ⟨c1, t1, e, hc1, ht1, hex, exy, eyx, eT, er⟩ := updateLabels_spec hc ht
  unfold step34
  rw [e]
  simp only
  rcases step4_spec hc1 ht1 hex with ⟨c', h1, h2, h3⟩ | ⟨t', y, h1, h2, h3, h4⟩
  · left
    refine ⟨c', h1, h2, ?_⟩
    rw [er] at h3
    rw [exy] at h3
    exact freeCount_augment ht.free h3
  · right
    refine ⟨c1, t', h1, hc1, h2, ?_, ?_⟩
    · unfold freeCount; rw [exy]
    · rw [eT] at h3 h4
      exact remCount_grow h3 h4

theorem freeCount_pos {C : Mat K n} {c : Core K n} {t : Tree K n} (ht : TInv C c t) : 0 < freeCount c := by
  unfold freeCount
  rw [Finset.card_pos]
  exact ⟨t.root, by simp [ht.free]⟩

theorem loop_spec {W : Mat K n} {o : K} {m : Bool} : ∀ (fuel : Nat) (c : Core K n) (t : Option (Tree K n)),
    CInv W c → (∀ t', t = some t' → TInv W c t') → mu c t < fuel →
    ∃ (c' : Core K n) (h : ∀ x, (c'.xy x).isSome = true), CInv W c' ∧
      loop W o m fuel c t = .solved (fun x => (c'.xy x).get (h x))
        ((List.finRange n).foldl (fun s x => s + restore W o m x ((c'.xy x).get (h x))) 0) (restore W o m) := by
  intro fuel
  induction fuel with
  | zero => intro c t _ _ h; omega
  | succ fuel ih =>
    intro c t hc ht hf
    -- the tree steps
    have hstep : ∀ t', TInv W c t' → (freeCount c - 1) * (n + 1) + remCount t' + 1 < fuel + 1 →
        ∃ (c' : Core K n) (h : ∀ x, (c'.xy x).isSome = true), CInv W c' ∧
          (match step34 W c t' with
            | .solved c' =>
              if h : ∀ x, (c'.xy x).isSome then
                .solved (fun x => (c'.xy x).get (h x))
                  ((List.finRange n).foldl (fun s x => s + restore W o m x ((c'.xy x).get (h x))) 0) (restore W o m)
              else .ub
            | .cont c' t' => loop W o m fuel c' t'
            | .noPath => .noPath
            | .ub => .ub) = Result.solved (fun x => (c'.xy x).get (h x))
            ((List.finRange n).foldl (fun s x => s + restore W o m x ((c'.xy x).get (h x))) 0) (restore W o m) := by
      intro t' ht' hlt
      have hfp := freeCount_pos ht'
      rcases step34_spec hc ht' with ⟨c1, e, h1, h2⟩ | ⟨c1, t1, e, h1, h2, h3, h4⟩
      · rw [e]
        refine ih c1 none h1 (by simp) ?_
        have : freeCount c1 = freeCount c - 1 := by omega
        have hr : 1 ≤ remCount t' := by
          obtain ⟨y, hy⟩ := exists_not_T hc ht'
          unfold remCount
          rw [Nat.succ_le_iff, Finset.card_pos]
          exact ⟨y, by simp [hy]⟩
        simp only [mu, this]; omega
      · rw [e]
        refine ih c1 (some t1) h1 (by rintro _ ⟨⟩; exact h2) ?_
        simp only [mu, h3]; omega
    cases t with
    | some t' =>
      simp only [loop, pass]
      exact hstep t' (ht t' rfl) (by simp only [mu] at hf; omega)
    | none =>
      simp only [loop, pass]
      cases hp : pickRoot W c with
      | none =>
        have hall := pickRoot_none hp
        exact ⟨c, hall, hc, by simp only [dif_pos hall]⟩
      | some t' =>
        obtain ⟨h1, h2⟩ := pickRoot_some hc hp
        refine hstep t' h1 ?_
        have hr : remCount t' ≤ n := by
          unfold remCount
          exact le_trans (Finset.card_le_univ _) (by simp)
        have hfp := freeCount_pos h1
        simp only [mu] at hf
        obtain ⟨k, hk⟩ : ∃ k, freeCount c = k + 1 := ⟨freeCount c - 1, by omega⟩
        rw [hk] at hf ⊢
        rw [Nat.add_mul] at hf
        simp only [Nat.add_sub_cancel]
        omega

/-! ### Step 1 -/

theorem rowScan_aux (C : Mat K n) (x : Fin n) : ∀ (l : List (Fin n)) (st : K × Option (Fin n)),
    let r := l.foldl (fun st y => if st.1 ≤ C x y then (C x y, some y) else st) st
    st.1 ≤ r.1 ∧ (∀ y ∈ l, C x y ≤ r.1) ∧ (r = st ∨ ∃ y, r = (C x y, some y)) ∧
    ((∃ y ∈ l, st.1 ≤ C x y) → ∃ y, r = (C x y, some y)) := by
  intro l
  induction l with
  | nil => intro st; simp
  | cons y l ih =>
    intro st
    simp only [List.foldl_cons]
    by_cases h : st.1 ≤ C x y
    · rw [if_pos h]
      obtain ⟨h1, h2, h3, h4⟩ := ih (C x y, some y)
      refine ⟨le_trans h h1, ?_, ?_, ?_⟩
      · intro y' hy'
        rcases List.mem_cons.1 hy' with rfl | hy'
        · exact h1
        · exact h2 y' hy'
      · right; rcases h3 with h3 | h3
        · exact ⟨y, h3⟩
        · exact h3
      · intro _
        rcases h3 with h3 | h3
        · exact ⟨y, h3⟩
        · exact h3
    · rw [if_neg h]
      obtain ⟨h1, h2, h3, h4⟩ := ih st
      refine ⟨h1, ?_, h3, ?_⟩
      · intro y' hy'
        rcases List.mem_cons.1 hy' with rfl | hy'
        · exact le_trans (le_of_lt (not_le.1 h)) h1
        · exact h2 y' hy'
      · rintro ⟨y', hy', hle⟩
        rcases List.mem_cons.1 hy' with rfl | hy'
        · exact absurd hle h
        · exact h4 ⟨y', hy', hle⟩

theorem rowScan_spec (C : Mat K n) (hC : ∀ x y, 0 ≤ C x y) (x : Fin n) :
    ∃ y, rowScan C x = (C x y, some y) ∧ ∀ y', C x y' ≤ C x y := by
  obtain ⟨h1, h2, h3, h4⟩ := rowScan_aux C x (List.finRange n) (0, none)
  obtain ⟨y, hy⟩ := h4 ⟨x, List.mem_finRange x, hC x x⟩
  refine ⟨y, hy, fun y' => ?_⟩
  have := h2 y' (List.mem_finRange y')
  rw [hy] at this
  exact this

theorem consistent_unmatch {xy yx : Fin n → Option (Fin n)} {x y : Fin n} (h : Consistent xy yx) (hx : xy x = some y) :
    Consistent (Function.update xy x none) (Function.update yx y none) := by
  intro x' y'
  have h1 := h x' y'
  have h2 := h x' y
  have h3 := h x y'
  have h4 := h x y
  by_cases e1 : x' = x <;> by_cases e3 : y' = y <;> simp_all [Function.update_apply, eq_comm]

/-- Invariant of step 1 after the rows in `l`. -/
structure IInv (C : Mat K n) (c : Core K n) (l : List (Fin n)) : Prop where
  cons : Consistent c.xy c.yx
  ly : ∀ y, c.ly y = 0
  lx : ∀ x ∈ l, ∀ y, C x y ≤ c.lx x
  matched : ∀ x y, c.xy x = some y → x ∈ l ∧ C x y = c.lx x

theorem initRow_spec {C : Mat K n} (hC : ∀ x y, 0 ≤ C x y) {c : Core K n} {l : List (Fin n)} (h : IInv C c l) {x : Fin n}
    (hx : x ∉ l) : ∃ c', initRow C c x = some c' ∧ IInv C c' (l ++ [x]) := by
  obtain ⟨y, hy, hmax⟩ := rowScan_spec C hC x
  have hxy : c.xy x = none := by
    cases h1 : c.xy x with
    | none => rfl
    | some y' => exact absurd (h.matched x y' h1).1 hx
  have hlx : ∀ x' ∈ l ++ [x], ∀ y', C x' y' ≤ Function.update c.lx x (C x y) x' := by
    intro x' hx' y'
    by_cases e : x' = x
    · subst e; simp [hmax y']
    · simp only [Function.update_apply, if_neg e]
      have : x' ∈ l := by simpa [e] using hx'
      exact h.lx x' this y'
  have hly : ∀ y', Function.update c.ly x 0 y' = 0 := by
    intro y'
    by_cases e : y' = x
    · subst e; simp
    · simp [e, h.ly y']
  have hold : ∀ x' y', c.xy x' = some y' → x' ∈ l ++ [x] ∧ C x' y' = Function.update c.lx x (C x y) x' := by
    intro x' y' h1
    have h2 := h.matched x' y' h1
    have e : x' ≠ x := by rintro rfl; exact hx h2.1
    exact ⟨by simp [h2.1], by simp [e, h2.2]⟩
  unfold initRow
  simp only [hy]
  cases hyx : c.yx y with
  | none =>
    refine ⟨_, rfl, ⟨?_, hly, hlx, ?_⟩⟩
    · apply consistent_match_free _ hxy
      have : Function.update c.yx y none = c.yx := by
        funext z; by_cases e : z = y
        · subst e; simp [hyx]
        · simp [e]
      rw [this]; exact h.cons
    · intro x' y' h1
      by_cases e : x' = x
      · subst e
        simp at h1; subst h1; simp
      · simp [e] at h1; exact hold x' y' h1
  | some xt =>
    have hxt : c.xy xt = some y := (h.cons xt y).2 hyx
    have hne : xt ≠ x := by rintro rfl; rw [hxy] at hxt; cases hxt
    simp only
    split
    · refine ⟨_, rfl, ⟨?_, hly, hlx, ?_⟩⟩
      · show Consistent (Function.update (Function.update c.xy x (some y)) xt none) (Function.update c.yx y (some x))
        rw [Function.update_comm hne.symm]
        exact consistent_match_free (consistent_unmatch h.cons hxt) (by simp [hne.symm, hxy])
      · intro x' y' h1
        by_cases e2 : x' = xt
        · subst e2; simp at h1
        · by_cases e : x' = x
          · subst e
            simp [e2] at h1; subst h1; simp
          · simp [e, e2] at h1; exact hold x' y' h1
    · refine ⟨_, rfl, ⟨?_, hly, hlx, ?_⟩⟩
      · have : Function.update (Function.update c.xy x (some y)) x none = c.xy := by
          funext z; by_cases e : z = x
          · subst e; simp [hxy]
          · simp [e]
        rw [this]; exact h.cons
      · intro x' y' h1
        by_cases e : x' = x
        · subst e; simp at h1
        · simp [e] at h1; exact hold x' y' h1

theorem init_aux {C : Mat K n} (hC : ∀ x y, 0 ≤ C x y) : ∀ (l2 l1 : List (Fin n)) (c : Core K n), (l1 ++ l2).Nodup →
    IInv C c l1 → ∃ c', l2.foldlM (initRow C) c = some c' ∧ IInv C c' (l1 ++ l2) := by
  intro l2
  induction l2 with
  | nil => intro l1 c _ h; exact ⟨c, rfl, by simpa using h⟩
  | cons x l2 ih =>
    intro l1 c hnd h
    have hx : x ∉ l1 := by
      rw [List.nodup_append] at hnd
      intro hc
      exact hnd.2.2 x hc x List.mem_cons_self rfl
    obtain ⟨c1, e1, h1⟩ := initRow_spec hC h hx
    obtain ⟨c2, e2, h2⟩ := ih (l1 ++ [x]) c1 (by simpa using hnd) h1
    exact ⟨c2, by simp [List.foldlM_cons, e1, e2], by simpa using h2⟩

theorem init_spec {C : Mat K n} (hC : ∀ x y, 0 ≤ C x y) : ∃ c, init C = some c ∧ CInv C c := by
  obtain ⟨c, e, h⟩ := init_aux hC (List.finRange n) [] ⟨fun _ => 0, fun _ => 0, fun _ => none, fun _ => none⟩
    (by simpa using List.nodup_finRange n) ⟨by intro x y; simp, by simp, by simp, by simp⟩
  refine ⟨c, e, ⟨h.cons, ?_, ?_⟩⟩
  · intro x y
    have := h.lx x (by simp) y
    simp [sl, h.ly, this]
  · intro x y hxy
    have := (h.matched x y hxy).2
    simp [sl, h.ly, this, tolE_pos]

/-! ### Pre- and postprocessing -/

theorem foldl_min_le {α : Type*} (f : α → K) (l : List α) (o : K) :
    l.foldl (fun o y => if f y < o then f y else o) o ≤ o ∧
    ∀ y ∈ l, l.foldl (fun o y => if f y < o then f y else o) o ≤ f y := by
  induction l generalizing o with
  | nil => simp
  | cons y l ih =>
    simp only [List.foldl_cons]
    obtain ⟨h1, h2⟩ := ih (if f y < o then f y else o)
    have h3 : (if f y < o then f y else o) ≤ o ∧ (if f y < o then f y else o) ≤ f y := by
      split
      · rename_i h; exact ⟨le_of_lt h, le_refl _⟩
      · rename_i h; exact ⟨le_refl _, not_lt.1 h⟩
    refine ⟨le_trans h1 h3.1, ?_⟩
    intro z hz
    rcases List.mem_cons.1 hz with rfl | hz
    · exact le_trans h1 h3.2
    · exact h2 z hz

theorem offsetOf_le (C : Mat K n) (x y : Fin n) : offsetOf C ≤ C x y := by
  have key : ∀ (l : List (Fin n)) (o : K),
      l.foldl (fun o x => (List.finRange n).foldl (fun o y => if C x y < o then C x y else o) o) o ≤ o ∧
      ∀ x ∈ l, ∀ y, l.foldl (fun o x => (List.finRange n).foldl (fun o y => if C x y < o then C x y else o) o) o
        ≤ C x y := by
    intro l
    induction l with
    | nil => intro o; simp
    | cons x l ih =>
      intro o
      simp only [List.foldl_cons]
      obtain ⟨h1, h2⟩ := ih ((List.finRange n).foldl (fun o y => if C x y < o then C x y else o) o)
      obtain ⟨h3, h4⟩ := foldl_min_le (C x) (List.finRange n) o
      refine ⟨le_trans h1 h3, ?_⟩
      intro z hz y
      rcases List.mem_cons.1 hz with rfl | hz
      · exact le_trans h1 (h4 y (List.mem_finRange y))
      · exact h2 z hz y
  exact (key (List.finRange n) 0).2 x (List.mem_finRange x) y

theorem preprocess_nonneg (C : Mat K n) (m : Bool) (x y : Fin n) : 0 ≤ (preprocess C m).1 x y := by
  unfold preprocess
  cases m
  · simp only [Bool.false_eq_true, if_false]
    have := offsetOf_le (fun x y => C x y * (-1)) x y
    linarith
  · simp only [if_true]
    have := offsetOf_le C x y
    linarith

theorem restore_preprocess (C : Mat K n) (m : Bool) : restore (preprocess C m).1 (preprocess C m).2 m = C := by
  funext x y
  unfold restore preprocess
  cases m
  · simp only [Bool.false_eq_true, if_false]
    split <;> simp_all
  · simp only [if_true]
    split <;> simp_all

theorem preprocess_eq (C : Mat K n) (m : Bool) : ∃ o : K, ∀ x y,
    (preprocess C m).1 x y = (if m then C x y else - C x y) - o := by
  unfold preprocess
  cases m
  · exact ⟨offsetOf (fun x y => C x y * (-1)), fun x y => by simp⟩
  · exact ⟨offsetOf C, fun x y => by simp⟩

theorem foldl_add_eq_sum (f : Fin n → K) : (List.finRange n).foldl (fun s x => s + f x) 0 = ∑ x, f x := by
  have key : ∀ (l : List (Fin n)) (s : K), l.foldl (fun s x => s + f x) s = s + (l.map f).sum := by
    intro l
    induction l with
    | nil => intro s; simp
    | cons x l ih => intro s; simp only [List.foldl_cons, ih, List.map_cons, List.sum_cons]; ring
  rw [key, zero_add, Fin.sum_univ_def]

/-! ### Weak duality -/

theorem weak_duality {W : Mat K n} {c : Core K n} (hc : CInv W c) (h : ∀ x, (c.xy x).isSome = true) :
    Function.Bijective (fun x => (c.xy x).get (h x)) ∧
    (∀ σ : Fin n → Fin n, Function.Bijective σ →
      ∑ x, W x (σ x) ≤ ∑ x, W x ((c.xy x).get (h x)) + n * tolE) ∧
    (0 < n → ∀ σ : Fin n → Fin n, Function.Bijective σ →
      ∑ x, W x (σ x) < ∑ x, W x ((c.xy x).get (h x)) + n * tolE) := by
  have hinj : Function.Injective (fun x => (c.xy x).get (h x)) := by
    intro x1 x2 he
    have h1 : c.xy x1 = some ((c.xy x1).get (h x1)) := by simp
    have h2 : c.xy x2 = some ((c.xy x2).get (h x2)) := by simp
    simp only at he
    rw [he] at h1
    rw [hc.cons] at h1 h2
    rw [h1] at h2
    exact Option.some.inj h2
  have hbij : Function.Bijective (fun x => (c.xy x).get (h x)) := ⟨hinj, Finite.surjective_of_injective hinj⟩
  have hdual : ∀ σ : Fin n → Fin n, Function.Bijective σ →
      ∑ x, (c.lx x + c.ly (σ x)) = ∑ x, c.lx x + ∑ x, c.ly x := by
    intro σ hσ
    rw [Finset.sum_add_distrib]
    congr 1
    exact (Equiv.ofBijective σ hσ).sum_comp c.ly
  have hub : ∀ σ : Fin n → Fin n, Function.Bijective σ → ∑ x, W x (σ x) ≤ ∑ x, c.lx x + ∑ x, c.ly x := by
    intro σ hσ
    rw [← hdual σ hσ]
    apply Finset.sum_le_sum
    intro x _
    have := hc.feas x (σ x)
    unfold sl at this; linarith
  have hlow : ∀ x, c.lx x + c.ly ((c.xy x).get (h x)) < W x ((c.xy x).get (h x)) + tolE := by
    intro x
    have := hc.tight x ((c.xy x).get (h x)) (by simp)
    unfold sl at this; linarith
  have hs : ∑ x, (W x ((c.xy x).get (h x)) + tolE) = ∑ x, W x ((c.xy x).get (h x)) + n * tolE := by
    rw [Finset.sum_add_distrib]; simp
  refine ⟨hbij, ?_, ?_⟩
  · intro σ hσ
    refine le_trans (hub σ hσ) ?_
    rw [← hdual _ hbij, ← hs]
    exact Finset.sum_le_sum fun x _ => le_of_lt (hlow x)
  · intro hn σ hσ
    refine lt_of_le_of_lt (hub σ hσ) ?_
    rw [← hdual _ hbij, ← hs]
    apply Finset.sum_lt_sum_of_nonempty
    · exact ⟨⟨0, hn⟩, Finset.mem_univ _⟩
    · exact fun x _ => hlow x

/-- The complete run. -/
theorem run_spec (C : Mat K n) (m : Bool) (fuel : Nat) (hf : n * (n + 1) < fuel) :
    ∃ soln : Fin n → Fin n, run C m fuel = .solved soln (∑ x, C x (soln x)) C ∧ Function.Bijective soln ∧
      (∀ σ : Fin n → Fin n, Function.Bijective σ →
        if m then ∑ x, C x (σ x) ≤ ∑ x, C x (soln x) + n * tolE
        else ∑ x, C x (soln x) ≤ ∑ x, C x (σ x) + n * tolE) ∧
      (0 < n → ∀ σ : Fin n → Fin n, Function.Bijective σ →
        if m then ∑ x, C x (σ x) < ∑ x, C x (soln x) + n * tolE
        else ∑ x, C x (soln x) < ∑ x, C x (σ x) + n * tolE) := by
  obtain ⟨c0, e0, hc0⟩ := init_spec (preprocess_nonneg C m)
  have hmu : mu c0 none < fuel := by
    have h1 : freeCount c0 ≤ n := by
      unfold freeCount; exact le_trans (Finset.card_le_univ _) (by simp)
    have := Nat.mul_le_mul_right (n + 1) h1
    simp only [mu]; omega
  obtain ⟨c, h, hc, e⟩ := loop_spec (W := (preprocess C m).1) (o := (preprocess C m).2) (m := m) fuel c0 none hc0
    (by simp) hmu
  obtain ⟨hb, hle, hlt⟩ := weak_duality hc h
  refine ⟨fun x => (c.xy x).get (h x), ?_, hb, ?_, ?_⟩
  · unfold run
    simp only [e0]
    rw [e, restore_preprocess, foldl_add_eq_sum]
  · intro σ hσ
    obtain ⟨o, ho⟩ := preprocess_eq C m
    have h1 := hle σ hσ
    simp only [ho, Finset.sum_sub_distrib] at h1
    cases m
    · simp only [Bool.false_eq_true, if_false, Finset.sum_neg_distrib] at h1 ⊢
      linarith
    · simp only [if_true] at h1 ⊢
      linarith
  · intro hn σ hσ
    obtain ⟨o, ho⟩ := preprocess_eq C m
    have h1 := hlt hn σ hσ
    simp only [ho, Finset.sum_sub_distrib] at h1
    cases m
    · simp only [Bool.false_eq_true, if_false, Finset.sum_neg_distrib] at h1 ⊢
      linarith
    · simp only [if_true] at h1 ⊢
      linarith

end Hungarian
end RFS
