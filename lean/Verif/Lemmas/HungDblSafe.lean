import Verif.Model.HungDbl
import Verif.Lemmas.Hungarian

/-!
The Hungarian method with rounding: whatever the rounding does, the function stays within its arrays and terminates.
-/

set_option linter.unusedSectionVars false

namespace RFS
namespace HungDbl
open Hungarian

variable {K : Type*} [Field K] [LinearOrder K] [IsStrictOrderedRing K] {n : Nat}

/-- A matrix for which the exact slacks are zero on the edges of `E` and one elsewhere. -/
def mask (E : Fin n → Fin n → Prop) [∀ x y, Decidable (E x y)] (c : Core K n) : Mat K n :=
  fun x y => c.lx x + c.ly y - if E x y then 0 else 1

theorem mask_iff (E : Fin n → Fin n → Prop) [∀ x y, Decidable (E x y)] (c : Core K n) (x y : Fin n) :
    |Hungarian.sl (mask E c) c x y| < tolE ↔ E x y := by
  unfold Hungarian.sl mask
  have h1 : (tolE : K) ≤ 1 := by
    unfold tolE
    rw [div_le_one (by positivity)]
    exact one_le_pow₀ (by norm_num)
  by_cases h : E x y
  · simp [h, tolE_pos]
  · simp only [h, if_false, iff_false, not_lt]
    rw [show c.lx x + c.ly y - (c.lx x + c.ly y - 1) = (1 : K) by ring, abs_one]
    exact h1

/-- The edges the search of the rounded program accepts. -/
def Edge (rd : K → K) (C : Mat K n) (c : Core K n) (x y : Fin n) : Prop := |sl rd C c x y| < rd tolE

instance (rd : K → K) (C : Mat K n) (c : Core K n) (x y : Fin n) : Decidable (Edge rd C c x y) := by
  unfold Edge; infer_instance

theorem bfs_mask (rd : K → K) (C : Mat K n) (c : Core K n) (S : Fin n → Bool) (target : Fin n) :
    ∀ (fuel : Nat) (b : Bfs n),
      bfs rd C c S target fuel b = Hungarian.bfs (mask (Edge rd C c) c) c S target fuel b := by
  intro fuel
  have hX : ∀ (b : Bfs n) x, childrenX rd C c b x = Hungarian.childrenX (mask (Edge rd C c) c) c b x := by
    intro b x
    unfold childrenX Hungarian.childrenX
    apply List.filter_congr
    intro y _
    have := mask_iff (Edge rd C c) c x y
    rw [show decide (|Hungarian.sl (mask (Edge rd C c) c) c x y| < tolE) = decide (|sl rd C c x y| < rd tolE) from
      decide_eq_decide.2 this]
  have hY : ∀ (b : Bfs n) y, childrenY rd C c S b y = Hungarian.childrenY (mask (Edge rd C c) c) c S b y := by
    intro b y
    unfold childrenY Hungarian.childrenY
    apply List.filter_congr
    intro x _
    have := mask_iff (Edge rd C c) c x y
    rw [show decide (|Hungarian.sl (mask (Edge rd C c) c) c x y| < tolE) = decide (|sl rd C c x y| < rd tolE) from
      decide_eq_decide.2 this]
  induction fuel with
  | zero => intro b; rfl
  | succ fuel ih =>
    intro b
    have eX : ∀ x rest, expandX rd C c b x rest = Hungarian.expandX (mask (Edge rd C c) c) c b x rest := by
      intro x rest; unfold expandX Hungarian.expandX; rw [hX]
    have eY : ∀ y rest, expandY rd C c S b y rest = Hungarian.expandY (mask (Edge rd C c) c) c S b y rest := by
      intro y rest; unfold expandY Hungarian.expandY; rw [hY]
    simp only [bfs, Hungarian.bfs, eX, eY, ih]
    cases b.queue with
    | nil => rfl
    | cons v rest => cases v <;> rfl

/-- The search never runs out of steps; if it finds the target, the parent pointers lead to the root. -/
theorem bfs_safe {C : Mat K n} {c : Core K n} {S : Fin n → Bool} {root target : Fin n} :
    ∀ (fuel : Nat) (b : Bfs n) (done : List (Fin n ⊕ Fin n)), BInv C c S root b done → Sum.inr target ∉ done →
      2 * n + 1 ≤ fuel + done.length →
      Hungarian.bfs C c S target fuel b = some none ∨
      ∃ b' done', Hungarian.bfs C c S target fuel b = some (some b') ∧ BInv C c S root b' done' ∧
        b'.yq target = true := by
  intro fuel
  induction fuel with
  | zero =>
    intro b done h ht hf
    exfalso
    have h1 : done.Nodup := h.nodup.of_append_left
    have h2 := h1.length_le_card
    simp at h2
    omega
  | succ fuel ih =>
    intro b done h ht hf
    unfold Hungarian.bfs
    split
    · exact Or.inl rfl
    · rename_i v rest hq
      split
      · rename_i hv
        exact Or.inr ⟨b, done, rfl, h, (h.markY target).2 (by simp [hq, hv])⟩
      · rename_i hv
        split
        · rename_i x
          apply ih _ _ (binv_stepX h x rest hq)
          · simp [ht]
          · simp; omega
        · rename_i y
          apply ih _ _ (binv_stepY h y rest hq)
          · simp only [List.mem_append, List.mem_singleton, ht, false_or]
            exact fun hc => hv hc.symm
          · simp; omega

theorem path_any {C C' : Mat K n} {c : Core K n} {b : Bfs n} {root x : Fin n} {ys : List (Fin n)}
    (hC : ∀ x y, |Hungarian.sl C' c x y| < tolE) (h : PathX C c b root x ys) : PathX C' c b root x ys := by
  induction h with
  | root => exact .root
  | step _ h2 h3 _ h5 h6 h7 h8 ih => exact .step ih h2 h3 (hC _ _) h5 h6 h7 h8

/-- What the function keeps true about its tree whatever the rounding does. -/
structure Safe (c : Core K n) (t : Tree K n) : Prop where
  free : c.xy t.root = none
  rootS : t.S t.root = true
  tMatched : ∀ y, t.T y = true → ∃ x, c.yx y = some x ∧ t.S x = true
  sMatched : ∀ x, t.S x = true → x = t.root ∨ ∃ y, c.xy x = some y ∧ t.T y = true
  tNS : ∀ y, t.T y = true → t.NS y = true

theorem free_col {xy yx : Fin n → Option (Fin n)} (hc : Consistent xy yx) {r : Fin n} (hr : xy r = none) :
    ∃ y, yx y = none := by
  by_contra hcon
  have hall : ∀ y, ∃ x, yx y = some x := by
    intro y
    cases h : yx y with
    | none => exact absurd ⟨y, h⟩ hcon
    | some x => exact ⟨x, rfl⟩
  choose f hf using hall
  have hinj : Function.Injective f := by
    intro y1 y2 h
    have h1 := (hc _ _).2 (hf y1)
    have h2 := (hc _ _).2 (hf y2)
    rw [h, h2] at h1
    exact (Option.some.inj h1).symm
  obtain ⟨y, hy⟩ := Finite.surjective_of_injective hinj r
  have := (hc _ _).2 (hf y)
  rw [hy, hr] at this
  cases this

theorem safe_notT {c : Core K n} {t : Tree K n} (hc : Consistent c.xy c.yx) (ht : Safe c t) :
    ∃ y, c.yx y = none ∧ t.T y = false := by
  obtain ⟨y, hy⟩ := free_col hc ht.free
  refine ⟨y, hy, ?_⟩
  by_contra h
  obtain ⟨x, h1, _⟩ := ht.tMatched y (by simpa using h)
  rw [hy] at h1; cases h1

theorem updateLabels_safe (rd : K → K) (h0 : rd 0 = 0) {c : Core K n} {t : Tree K n} (hc : Consistent c.xy c.yx)
    (ht : Safe c t) :
    ∃ c' t', updateLabels rd c t = some (c', t') ∧ Safe c' t' ∧ (∃ y, t'.NS y = true ∧ t'.T y = false) ∧
      c'.xy = c.xy ∧ c'.yx = c.yx ∧ t'.T = t.T ∧ t'.root = t.root := by
  unfold updateLabels
  by_cases hNS : ∀ y, t.NS y = t.T y
  · rw [if_pos hNS]
    obtain ⟨y0, _, hy0⟩ := safe_notT hc ht
    cases hm : minSlack t with
    | none =>
      have := (minSlack_spec t).1 hm y0
      simp [hy0] at this
    | some a =>
      obtain ⟨_, y1, hy1, hy1a⟩ := (minSlack_spec t).2 a hm
      refine ⟨_, _, rfl, ⟨ht.free, ht.rootS, ht.tMatched, ht.sMatched, ?_⟩, ⟨y1, ?_, hy1⟩, rfl, rfl, rfl, rfl⟩
      · intro y hy
        simp [ht.tNS y hy]
      · simp [hy1, hy1a, h0]
  · rw [if_neg hNS]
    refine ⟨c, t, rfl, ht, ?_, rfl, rfl, rfl, rfl⟩
    push Not at hNS
    obtain ⟨y, hy⟩ := hNS
    refine ⟨y, ?_⟩
    cases h1 : t.NS y <;> cases h2 : t.T y <;> simp_all
    have := ht.tNS y h2
    simp [h1] at this

theorem step4_safe (rd : K → K) (C : Mat K n) {c : Core K n} {t : Tree K n} (hc : Consistent c.xy c.yx) (ht : Safe c t)
    (hex : ∃ y, t.NS y = true ∧ t.T y = false) :
    step4 rd C c t = .noPath ∨
    (∃ c', step4 rd C c t = .cont c' none ∧ Consistent c'.xy c'.yx ∧
      (∀ x, (c'.xy x).isSome = true ↔ (x = t.root ∨ (c.xy x).isSome = true))) ∨
    (∃ t' y, step4 rd C c t = .cont c (some t') ∧ Safe c t' ∧ t.T y = false ∧
      t'.T = Function.update t.T y true) := by
  unfold step4
  split
  · rename_i hf
    obtain ⟨y, h1, h2⟩ := hex
    have := List.find?_eq_none.1 hf y (List.mem_finRange y)
    simp [h1, h2] at this
  · rename_i y hf
    have hy := List.find?_some hf
    simp only [Bool.and_eq_true, Bool.not_eq_true'] at hy
    obtain ⟨hNS, hT⟩ := hy
    split
    · rename_i hyx
      rw [bfs_mask]
      rcases bfs_safe (C := mask (Edge rd C c) c) (c := c) (S := t.S) (root := t.root) (target := y) (2 * n + 1)
        (bfsInit t.root) [] (binv_init _ c t.S t.root) (by simp) (by simp) with h | ⟨b, done, e1, hb, hyq⟩
      · left; rw [h]
      · right; left
        obtain ⟨x, ys, h1, _, h3, h4, h5, h6⟩ := hb.pathY y hyq
        have hz : ∀ x y, |Hungarian.sl (mask (fun _ _ => True) c) c x y| < (tolE : K) :=
          fun x y => (mask_iff (fun _ _ => True) c x y).2 trivial
        have h4' := path_any hz h4
        have hlen : ys.length < n + 1 := by
          have := h4.nodup.length_le_card
          simp at this; omega
        obtain ⟨c', e2, _, _, g3, _, g5⟩ := augment_spec hc ht.free h4' (n + 1) c y hlen h5 h1 (hz _ _) h3 rfl rfl (by
          have : Function.update c.yx y none = c.yx := by
            funext z; by_cases e : z = y
            · subst e; simp [hyx]
            · simp [Function.update_apply, e]
          rw [this]; exact hc) (fun _ _ _ _ => rfl) ht.free (fun _ _ _ => hz _ _)
        exact ⟨c', by simp only [e1, e2], g3, g5⟩
    · rename_i xt hyx
      right; right
      have hxt : c.xy xt = some y := (hc xt y).2 hyx
      have hS' : ∀ x, Function.update t.S xt true x = true ↔ x = xt ∨ t.S x = true := by
        intro x; by_cases e : x = xt
        · subst e; simp
        · simp [e]
      have hT' : ∀ x, Function.update t.T y true x = true ↔ x = y ∨ t.T x = true := by
        intro x; by_cases e : x = y
        · subst e; simp
        · simp [e]
      refine ⟨_, y, rfl, ⟨ht.free, (hS' _).2 (Or.inr ht.rootS), ?_, ?_, ?_⟩, hT, rfl⟩
      · intro y' hy'
        rcases (hT' y').1 hy' with rfl | h
        · exact ⟨xt, hyx, (hS' _).2 (Or.inl rfl)⟩
        · obtain ⟨x, h1, h2⟩ := ht.tMatched y' h
          exact ⟨x, h1, (hS' _).2 (Or.inr h2)⟩
      · intro x hx
        rcases (hS' x).1 hx with rfl | h
        · exact Or.inr ⟨y, hxt, (hT' _).2 (Or.inl rfl)⟩
        · rcases ht.sMatched x h with h1 | ⟨y', h1, h2⟩
          · exact Or.inl h1
          · exact Or.inr ⟨y', h1, (hT' _).2 (Or.inr h2)⟩
      · intro y' hy'
        rcases (hT' y').1 hy' with rfl | h
        · simp [hNS]
        · simp [ht.tNS y' h]

theorem step34_safe (rd : K → K) (h0 : rd 0 = 0) (C : Mat K n) {c : Core K n} {t : Tree K n}
    (hc : Consistent c.xy c.yx) (ht : Safe c t) :
    step34 rd C c t = .noPath ∨
    (∃ c', step34 rd C c t = .cont c' none ∧ Consistent c'.xy c'.yx ∧ freeCount c' + 1 = freeCount c) ∨
    (∃ c' t', step34 rd C c t = .cont c' (some t') ∧ Consistent c'.xy c'.yx ∧ Safe c' t' ∧
      freeCount c' = freeCount c ∧ remCount t' + 1 = remCount t) := by
  obtain ⟨c1, t1, e, ht1, hex, exy, eyx, eT, er⟩ := updateLabels_safe rd h0 hc ht
  have hc1 : Consistent c1.xy c1.yx := by rw [exy, eyx]; exact hc
  unfold step34
  rw [e]
  simp only
  rcases step4_safe rd C hc1 ht1 hex with h | ⟨c', h1, h2, h3⟩ | ⟨t', y, h1, h2, h3, h4⟩
  · exact Or.inl h
  · right; left
    refine ⟨c', h1, h2, ?_⟩
    rw [er, exy] at h3
    exact freeCount_augment ht.free h3
  · right; right
    refine ⟨c1, t', h1, hc1, h2, ?_, ?_⟩
    · unfold freeCount; rw [exy]
    · rw [eT] at h3 h4
      exact remCount_grow h3 h4

theorem pickRoot_safe (rd : K → K) (C : Mat K n) {c : Core K n} {t : Tree K n} (h : pickRoot rd C c = some t) :
    Safe c t := by
  unfold pickRoot at h
  split at h
  · cases h
  · rename_i x hf
    have hx := List.find?_some hf
    simp at hx
    cases h
    refine ⟨hx, by simp, by simp, ?_, by simp⟩
    intro x' hx'; left; simpa using hx'

theorem pickRoot_done (rd : K → K) {C : Mat K n} {c : Core K n} (h : pickRoot rd C c = none) :
    ∀ x, (c.xy x).isSome = true := by
  unfold pickRoot at h
  split at h
  · rename_i hf
    intro x
    have := List.find?_eq_none.1 hf x (List.mem_finRange x)
    cases hx : c.xy x <;> simp_all
  · cases h

theorem perm_of_cons {c : Core K n} (hc : Consistent c.xy c.yx) (h : ∀ x, (c.xy x).isSome = true) :
    Function.Bijective (fun x => (c.xy x).get (h x)) := by
  have hinj : Function.Injective (fun x => (c.xy x).get (h x)) := by
    intro x1 x2 he
    have h1 : c.xy x1 = some ((c.xy x1).get (h x1)) := by simp
    have h2 : c.xy x2 = some ((c.xy x2).get (h x2)) := by simp
    simp only at he
    rw [he] at h1
    rw [hc] at h1 h2
    rw [h1] at h2
    exact Option.some.inj h2
  exact ⟨hinj, Finite.surjective_of_injective hinj⟩

theorem loop_safe (rd : K → K) (h0 : rd 0 = 0) {W : Mat K n} {o : K} {m : Bool} :
    ∀ (fuel : Nat) (c : Core K n) (t : Option (Tree K n)),
    Consistent c.xy c.yx → (∀ t', t = some t' → Safe c t') → mu c t < fuel →
    loop rd W o m fuel c t = .noPath ∨
    ∃ soln : Fin n → Fin n, Function.Bijective soln ∧
      loop rd W o m fuel c t = .solved soln
        ((List.finRange n).foldl (fun s x => rd (s + restore rd W o m x (soln x))) 0) (restore rd W o m) := by
  intro fuel
  induction fuel with
  | zero => intro c t _ _ h; omega
  | succ fuel ih =>
    intro c t hc ht hf
    have hstep : ∀ t', Safe c t' → pass rd W c t = step34 rd W c t' →
        (freeCount c - 1) * (n + 1) + remCount t' + 1 < fuel + 1 →
        loop rd W o m (fuel + 1) c t = .noPath ∨
        ∃ soln : Fin n → Fin n, Function.Bijective soln ∧
          loop rd W o m (fuel + 1) c t = .solved soln
            ((List.finRange n).foldl (fun s x => rd (s + restore rd W o m x (soln x))) 0) (restore rd W o m) := by
      intro t' ht' hp hlt
      have hfp : 0 < freeCount c := by
        unfold freeCount
        rw [Finset.card_pos]
        exact ⟨t'.root, by simp [ht'.free]⟩
      rcases step34_safe rd h0 W hc ht' with h | ⟨c1, e, h1, h2⟩ | ⟨c1, t1, e, h1, h2, h3, h4⟩
      · left; simp only [loop, hp, h]
      · simp only [loop, hp, e]
        refine ih c1 none h1 (by simp) ?_
        have : freeCount c1 = freeCount c - 1 := by omega
        have hr : 1 ≤ remCount t' := by
          obtain ⟨y, _, hy⟩ := safe_notT hc ht'
          unfold remCount
          rw [Nat.succ_le_iff, Finset.card_pos]
          exact ⟨y, by simp [hy]⟩
        simp only [mu, this]; omega
      · simp only [loop, hp, e]
        refine ih c1 (some t1) h1 (by rintro _ ⟨⟩; exact h2) ?_
        simp only [mu, h3]; omega
    cases t with
    | some t' => exact hstep t' (ht t' rfl) rfl (by simp only [mu] at hf; omega)
    | none =>
      cases hp : pickRoot rd W c with
      | none =>
        have hall := pickRoot_done rd hp
        right
        exact ⟨fun x => (c.xy x).get (hall x), perm_of_cons hc hall, by
          simp only [loop, pass, hp, dif_pos hall]⟩
      | some t' =>
        have h1 := pickRoot_safe rd W hp
        refine hstep t' h1 (by simp only [pass, hp]) ?_
        have hr : remCount t' ≤ n := by
          unfold remCount
          exact le_trans (Finset.card_le_univ _) (by simp)
        have hfp : 0 < freeCount c := by
          unfold freeCount
          rw [Finset.card_pos]
          exact ⟨t'.root, by simp [h1.free]⟩
        simp only [mu] at hf
        obtain ⟨k, hk⟩ : ∃ k, freeCount c = k + 1 := ⟨freeCount c - 1, by omega⟩
        rw [hk] at hf ⊢
        rw [Nat.add_mul] at hf
        simp only [Nat.add_sub_cancel]
        omega

theorem preprocess_nonneg (rd : K → K) (hpos : ∀ z, 0 ≤ z → 0 ≤ rd z) (C : Mat K n) (m : Bool) (x y : Fin n) :
    0 ≤ (preprocess rd C m).1 x y := by
  unfold preprocess
  cases m
  · simp only [Bool.false_eq_true, if_false]
    apply hpos
    have := offsetOf_le (fun x y => C x y * (-1)) x y
    linarith
  · simp only [if_true]
    apply hpos
    have := offsetOf_le C x y
    linarith

/-- The function ends, without an access out of bounds; if it returns `true` its solution is a permutation, the cost is
the sum in doubles of the selected entries of the matrix it leaves, and that matrix is the caller's up to the offset. -/
theorem run_safe (rd : K → K) (h0 : rd 0 = 0) (hpos : ∀ z, 0 ≤ z → 0 ≤ rd z) (C : Mat K n) (m : Bool) (fuel : Nat)
    (hf : n * (n + 1) < fuel) :
    run rd C m fuel = .noPath ∨
    ∃ soln : Fin n → Fin n, Function.Bijective soln ∧
      run rd C m fuel = .solved soln
        ((List.finRange n).foldl (fun s x => rd (s + restore rd (preprocess rd C m).1 (preprocess rd C m).2 m x (soln x))) 0)
        (restore rd (preprocess rd C m).1 (preprocess rd C m).2 m) := by
  obtain ⟨c0, e0, hc0⟩ := init_spec (preprocess_nonneg rd hpos C m)
  have hmu : mu c0 none < fuel := by
    have h1 : freeCount c0 ≤ n := by
      unfold freeCount; exact le_trans (Finset.card_le_univ _) (by simp)
    have := Nat.mul_le_mul_right (n + 1) h1
    simp only [mu]; omega
  unfold run
  simp only [e0]
  exact loop_safe rd h0 fuel c0 none hc0.cons (by simp) hmu

end HungDbl
end RFS
