import Verif.Model.LMB
import Verif.Lemmas.RFSLikelihood
import Verif.Lemmas.CBMeMBer
import Mathlib.Algebra.BigOperators.Group.Finset.Piecewise

set_option linter.unusedSectionVars false

/-!
Lemmas about the LMB map update: the tables accumulated over the assignments of a block are sums over all associations within the block.
-/

namespace RFS
namespace LMB
open GM GMB CBM Partition RFSLik Assoc PermLexProps

variable {d n nZ : Nat}

/-- `labelLikelihood` of row `m` with column `k`. -/
noncomputable def labOf (pd pe : Fin n → ℝ) (w : ℝ) (m : Fin n) (k : Option (Fin nZ)) : ℝ :=
  match k with
  | some _ => w
  | none => w * pe m * (1 - pd m) / (1 - pd m * pe m)

theorem foldl_row (pd pe : Fin n → ℝ) (hden : ∀ m, 1 - pd m * pe m ≠ 0) (cols : List (Fin nZ)) (w : ℝ) (xs : List (Fin n × Nat)) : ∀ t : Tab n nZ,
    xs.foldlM (rowStep pd pe cols w) t = some ⟨t.lik,
      fun m k => t.mw m k + (xs.map fun x => if x.1 = m ∧ cols[x.2]? = k then labOf pd pe w m k else 0).sum,
      fun m => t.upd m + (xs.map fun x => if x.1 = m then labOf pd pe w m cols[x.2]? else 0).sum⟩ := by
  induction xs with
  | nil => intro t; simp
  | cons x xs ih =>
    intro t
    have h1 : rowStep pd pe cols w t x = some ⟨t.lik, fun m k => t.mw m k + (if x.1 = m ∧ cols[x.2]? = k then labOf pd pe w m k else 0),
        fun m => t.upd m + (if x.1 = m then labOf pd pe w m cols[x.2]? else 0)⟩ := by
      unfold rowStep
      cases hc : cols[x.2]? with
      | some c =>
        simp only [Option.some.injEq, Tab.mk.injEq, true_and]
        constructor
        · funext m k
          by_cases h : m = x.1 ∧ k = some c
          · obtain ⟨rfl, rfl⟩ := h
            simp [labOf]
          · rw [if_neg h, if_neg (fun h' => h ⟨h'.1.symm, h'.2.symm⟩), add_zero]
        · funext m
          by_cases h : m = x.1
          · subst h; simp [labOf]
          · rw [if_neg h, if_neg (fun h' => h h'.symm), add_zero]
      | none =>
        simp only
        rw [if_neg (hden _)]
        simp only [Option.some.injEq, Tab.mk.injEq, true_and]
        constructor
        · funext m k
          by_cases h : m = x.1 ∧ k = none
          · obtain ⟨rfl, rfl⟩ := h
            simp [labOf]
          · rw [if_neg h, if_neg (fun h' => h ⟨h'.1.symm, h'.2.symm⟩), add_zero]
        · funext m
          by_cases h : m = x.1
          · subst h; simp [labOf]
          · rw [if_neg h, if_neg (fun h' => h h'.symm), add_zero]
    rw [List.foldlM_cons, h1]
    show xs.foldlM (rowStep pd pe cols w) _ = _
    rw [ih]
    simp only [List.map_cons, List.sum_cons, Option.some.injEq, Tab.mk.injEq, true_and]
    exact ⟨by funext m k; ring, by funext m; ring⟩

/-- A sum over the rows with one term for row `m`. -/
theorem pick (rows : List (Fin n)) (cols : List (Fin nZ)) (hr : rows.Nodup) (p : List Nat) (hl : p.length = rows.length) (m : Fin n)
    (g : Option (Fin nZ) → ℝ) :
    ((rows.zip p).map fun x => if x.1 = m then g cols[x.2]? else 0).sum = if m ∈ rows then g (toF rows cols p m) else 0 := by
  induction rows generalizing p with
  | nil => simp
  | cons r rows ih =>
    obtain ⟨j, p, rfl⟩ : ∃ j q, p = j :: q := List.exists_cons_of_length_eq_add_one (by simpa using hl)
    obtain ⟨hr1, hr2⟩ := List.nodup_cons.1 hr
    have hl' : p.length = rows.length := by simpa using hl
    rw [List.zip_cons_cons, List.map_cons, List.sum_cons, ih hr2 p hl']
    by_cases h : r = m
    · subst h
      simp only [if_true, List.mem_cons, true_or, if_neg hr1, add_zero]
      rw [show toF (r :: rows) cols (j :: p) r = cols[j]? by simp [toF]]
    · rw [if_neg h, zero_add]
      by_cases hm : m ∈ rows
      · rw [if_pos hm, if_pos (List.mem_cons_of_mem _ hm)]
        congr 1
        unfold toF
        rw [List.idxOf_cons_ne _ (by exact h), List.getElem?_cons_succ]
      · rw [if_neg hm, if_neg (by simp [hm]; exact fun e => h e.symm)]

theorem zip_unused (rows : List (Fin n)) (k : Nat) (p : List Nat) (hl : p.length = rows.length) : rows.zip (withUnused k p) = rows.zip p := by
  unfold withUnused
  have e : rows = rows ++ [] := by simp
  conv_lhs => rw [e]
  rw [List.zip_append hl.symm, List.zip_nil_left, List.append_nil]

/-- One assignment adds its labels. -/
theorem assign_eq (pd pe : Fin n → ℝ) (hden : ∀ m, 1 - pd m * pe m ≠ 0) (rows : List (Fin n)) (cols : List (Fin nZ)) (hr : rows.Nodup)
    (t : Tab n nZ) (p : List Nat) (hl : p.length = rows.length) (w : ℝ) :
    assign pd pe rows cols t (withUnused cols.length p) w = some ⟨t.lik + w,
      fun m k => t.mw m k + (if m ∈ rows then if toF rows cols p m = k then labOf pd pe w m k else 0 else 0),
      fun m => t.upd m + (if m ∈ rows then labOf pd pe w m (toF rows cols p m) else 0)⟩ := by
  unfold assign
  rw [zip_unused _ _ _ hl, foldl_row pd pe hden]
  simp only [Option.some.injEq, Tab.mk.injEq, true_and]
  constructor
  · funext m k
    rw [← pick rows cols hr p hl m (fun x => if x = k then labOf pd pe w m k else 0)]
    congr 3
    funext x
    by_cases h : x.1 = m <;> simp [h]
  · funext m
    rw [← pick rows cols hr p hl m (fun x => labOf pd pe w m x)]

/-- A loop whose steps add. -/
theorem foldl_tab {α : Type*} (step : Tab n nZ → α → Option (Tab n nZ)) (w : α → ℝ) (dm : α → Fin n → Option (Fin nZ) → ℝ) (du : α → Fin n → ℝ)
    (l : List α) : ∀ t : Tab n nZ, (∀ t, ∀ a ∈ l, step t a = some ⟨t.lik + w a, fun m k => t.mw m k + dm a m k, fun m => t.upd m + du a m⟩) →
    l.foldlM step t = some ⟨t.lik + (l.map w).sum, fun m k => t.mw m k + (l.map fun a => dm a m k).sum, fun m => t.upd m + (l.map fun a => du a m).sum⟩ := by
  induction l with
  | nil => intro t _; simp
  | cons a l ih =>
    intro t h
    rw [List.foldlM_cons, h t a (by simp)]
    show l.foldlM step _ = _
    rw [ih _ (fun t b hb => h t b (List.mem_cons_of_mem _ hb))]
    simp only [List.map_cons, List.sum_cons, Option.some.injEq, Tab.mk.injEq]
    exact ⟨by ring, by funext m k; ring, by funext m; ring⟩

/-- The loop runs through the calls until one returns 0. -/
theorem lexTab_eq (step : Tab n nZ → List Nat → Option (Tab n nZ)) (xs : List (List Nat)) : ∀ (st : PermLex.St) (fuel : Nat) (t : Tab n nZ), xs.length < fuel →
    (∀ k (h : k < xs.length), ∃ r, r ≠ 0 ∧ PermLex.call st k = some (xs[k], r)) → (∃ o, PermLex.call st xs.length = some (o, 0)) →
    lexTab step fuel st t = xs.foldlM step t := by
  induction xs with
  | nil =>
    intro st fuel t hf _ ⟨o, ho⟩
    obtain ⟨fuel, rfl⟩ := Nat.exists_eq_succ_of_ne_zero (by simp at hf; omega : fuel ≠ 0)
    unfold lexTab
    unfold PermLex.call at ho
    cases h : PermLex.next st with
    | none => simp [h] at ho
    | some r =>
      obtain ⟨o', n', st'⟩ := r
      simp [h] at ho
      simp [ho.2]
  | cons x xs ih =>
    intro st fuel t hf hk ho
    obtain ⟨fuel, rfl⟩ := Nat.exists_eq_succ_of_ne_zero (by omega : fuel ≠ 0)
    unfold lexTab
    obtain ⟨r, hr, h0⟩ := hk 0 (by simp)
    unfold PermLex.call at h0
    cases h : PermLex.next st with
    | none => rw [h] at h0; cases h0
    | some s =>
      obtain ⟨o', n', st'⟩ := s
      rw [h] at h0
      simp only [Option.map_some, Option.some.injEq, Prod.mk.injEq, List.getElem_cons_zero] at h0
      simp only
      rw [if_neg (by rw [h0.2]; exact hr)]
      have hcall : ∀ k, PermLex.call st (k + 1) = PermLex.call st' k := by
        intro k
        conv_lhs => unfold PermLex.call
        rw [h]
      rw [List.foldlM_cons, h0.1]
      show (step t x).bind _ = (step t x).bind _
      congr 1
      funext t'
      refine ih st' fuel t' (by simpa using hf) (fun k hkn => ?_) ?_
      · have := hk (k + 1) (by simpa using hkn)
        rw [hcall] at this
        simpa using this
      · obtain ⟨o, ho⟩ := ho
        exact ⟨o, by rw [← hcall]; simpa using ho⟩

/-- The enumeration of a small block: every association within the block once. -/
theorem block_enum (rows : List (Fin n)) (cols : List (Fin nZ)) (hr : rows.Nodup) (hc : cols.Nodup) (h8 : rows.length + cols.length ≤ 8)
    (h0 : 0 < rows.length + cols.length) : ∃ A : List (List Nat), (∀ p ∈ A, IsAssignment rows.length cols.length p) ∧
      (∀ G' : (Fin n → Option (Fin nZ)) → ℝ, (A.map fun p => G' (toF rows cols p)).sum = ∑ f ∈ Match rows.toFinset cols.toFinset, G' f) ∧
      ∀ (step : Tab n nZ → List Nat → Option (Tab n nZ)) fuel t, 2 ^ 32 ≤ fuel →
        lexTab step fuel (PermLex.init rows.length cols.length true) t = A.foldlM (fun t p => step t (withUnused cols.length p)) t := by
  classical
  obtain ⟨A, hA1, hA2, hA3⟩ := C04_enumeration rows.length cols.length h0
  have hnd : A.Nodup := hA1.imp (fun h => ne_of_lt h)
  have hlen := assignments_bound _ _ h8 A hnd (fun p hp => (hA2 p).1 hp)
  refine ⟨A, fun p hp => (hA2 p).1 hp, fun G' => ?_, fun step fuel t hf => ?_⟩
  · rw [← List.sum_toFinset _ hnd]
    refine Finset.sum_bij (fun p _ => toF rows cols p) ?_ ?_ ?_ ?_
    · intro p hp; exact toF_mem rows cols hr hc p ((hA2 p).1 (List.mem_toFinset.1 hp))
    · intro p hp q hq h
      exact toF_inj rows cols hr hc p q ((hA2 p).1 (List.mem_toFinset.1 hp)) ((hA2 q).1 (List.mem_toFinset.1 hq)) h
    · intro f hf
      obtain ⟨p, hp, e⟩ := toF_surj rows cols hr hc f hf
      exact ⟨p, List.mem_toFinset.2 ((hA2 p).2 hp), e⟩
    · intro p hp; rfl
  · rw [lexTab_eq step (A.map (withUnused cols.length)) _ fuel t (by simp; omega)]
    · rw [List.foldlM_map]
    · intro k hk
      have hk' : k < A.length := by simpa using hk
      refine ⟨(k + 1) % 2 ^ 32, by rw [Nat.mod_eq_of_lt (by omega)]; omega, ?_⟩
      rw [hA3, dif_pos hk']
      simp
    · exact ⟨_, by rw [hA3, dif_neg (by simp)]⟩

/-- Weight of an association within the rows `R`. -/
noncomputable def wt (L : Fin n → Fin nZ → ℝ) (miss : Fin n → ℝ) (R : Finset (Fin n)) (f : Fin n → Option (Fin nZ)) : ℝ := ∏ m ∈ R, rowW L miss f m

theorem ex_perm (L : Fin n → Fin nZ → ℝ) (pd pe : Fin n → ℝ) (hL : ∀ m z, 0 ≤ L m z) (hpp : ∀ m, pd m * pe m ≤ 1) (rows : List (Fin n))
    (cols : List (Fin nZ)) (hr : rows.Nodup) (hc : cols.Nodup) (p : List Nat) (hp : IsAssignment rows.length cols.length p) :
    ex (permTerm L pd pe rows cols (withUnused cols.length p)) =
      wt (fun m z => max (L m z) eps) (fun m => 1 - pd m * pe m) rows.toFinset (toF rows cols p) := by
  have h := ex_permTerm L (fun m => pd m * pe m) (fun _ => 1) hL hpp (fun _ => zero_le_one) rows cols hr hc p hp
  have h1 : ∏ z ∈ cols.toFinset, colW (fun _ => (1 : ℝ)) (toF rows cols p) z = 1 :=
    Finset.prod_eq_one fun z _ => by unfold colW; split <;> rfl
  rw [h1, mul_one] at h
  unfold wt
  rw [← h]
  unfold RFSLik.permTerm
  rw [ex_add]
  have h2 : ex ((List.drop rows.length (withUnused cols.length p)).map (clutTerm (fun _ => (1 : ℝ)) cols)).sum = 1 := by
    rw [ex_sum, List.map_map]
    refine List.prod_eq_one fun x hx => ?_
    obtain ⟨j, -, rfl⟩ := List.mem_map.1 hx
    simp only [Function.comp, clutTerm]
    cases cols[j]? with
    | none => exact ex_zero
    | some c => exact ex_lg 1 zero_le_one
  rw [h2, mul_one]
  rfl

/-- **Block lemma.** The tables after the assignments of a small block. -/
theorem block_tab (L : Fin n → Fin nZ → ℝ) (pd pe : Fin n → ℝ) (hL : ∀ m z, 0 ≤ L m z) (hpp : ∀ m, pd m * pe m < 1) (rows : List (Fin n))
    (cols : List (Fin nZ)) (hr : rows.Nodup) (hc : cols.Nodup) (h8 : rows.length + cols.length ≤ 8) (h0 : 0 < rows.length + cols.length)
    (fuel : Nat) (hf : 2 ^ 32 ≤ fuel) (t : Tab n nZ) (W : (Fin n → Option (Fin nZ)) → ℝ)
    (hW : W = wt (fun m z => max (L m z) eps) (fun m => 1 - pd m * pe m) rows.toFinset) :
    lexTab (fun t o => assign pd pe rows cols t o (ex (permTerm L pd pe rows cols o))) fuel (PermLex.init rows.length cols.length true) t =
      some ⟨t.lik + ∑ f ∈ Match rows.toFinset cols.toFinset, W f,
        fun m k => t.mw m k + (if m ∈ rows then ∑ f ∈ Match rows.toFinset cols.toFinset, (if f m = k then labOf pd pe (W f) m k else 0) else 0),
        fun m => t.upd m + (if m ∈ rows then ∑ f ∈ Match rows.toFinset cols.toFinset, labOf pd pe (W f) m (f m) else 0)⟩ := by
  obtain ⟨A, hA, hsum, hlex⟩ := block_enum rows cols hr hc h8 h0
  have hden : ∀ m, 1 - pd m * pe m ≠ 0 := fun m => (sub_pos.2 (hpp m)).ne'
  rw [hlex _ fuel t hf]
  rw [foldl_tab _ (fun p => W (toF rows cols p))
    (fun p m k => if m ∈ rows then if toF rows cols p m = k then labOf pd pe (W (toF rows cols p)) m k else 0 else 0)
    (fun p m => if m ∈ rows then labOf pd pe (W (toF rows cols p)) m (toF rows cols p m) else 0)]
  · simp only [Option.some.injEq, Tab.mk.injEq]
    refine ⟨by rw [hsum W], ?_, ?_⟩
    · funext m k
      by_cases hm : m ∈ rows
      · simp only [if_pos hm]
        rw [hsum (fun f => if f m = k then labOf pd pe (W f) m k else 0)]
      · simp [hm]
    · funext m
      by_cases hm : m ∈ rows
      · simp only [if_pos hm]
        rw [hsum (fun f => labOf pd pe (W f) m (f m))]
      · simp [hm]
  · intro t p hp
    rw [ex_perm L pd pe hL (fun m => (hpp m).le) rows cols hr hc p (hA p hp), ← hW, assign_eq pd pe hden rows cols hr t p (hA p hp).1]

/-! ### Selecting associations by changing one row -/

/-- Row `m` replaced. -/
def rowMod (L : Fin n → Fin nZ → ℝ) (m : Fin n) (g : Fin nZ → ℝ) : Fin n → Fin nZ → ℝ := fun m' z => if m' = m then g z else L m' z

theorem wt_mod (L L2 : Fin n → Fin nZ → ℝ) (miss miss2 : Fin n → ℝ) (R : Finset (Fin n)) (m : Fin n) (hm : m ∈ R) (f : Fin n → Option (Fin nZ)) (c : ℝ)
    (h1 : ∀ m' ≠ m, rowW L2 miss2 f m' = rowW L miss f m') (h2 : rowW L2 miss2 f m = c * rowW L miss f m) :
    wt L2 miss2 R f = c * wt L miss R f := by
  unfold wt
  rw [← Finset.mul_prod_erase R _ hm, ← Finset.mul_prod_erase R (fun m => rowW L miss f m) hm, h2, mul_assoc]
  congr 2
  exact Finset.prod_congr rfl fun m' hm' => h1 m' (Finset.ne_of_mem_erase hm')

theorem S_one (L : Fin n → Fin nZ → ℝ) (miss : Fin n → ℝ) (R : Finset (Fin n)) (C : Finset (Fin nZ)) :
    S L miss (fun _ => 1) R C = ∑ f ∈ Match R C, wt L miss R f := by
  unfold S wt
  refine Finset.sum_congr rfl fun f _ => ?_
  rw [Finset.prod_eq_one (s := C), mul_one]
  intro z _
  unfold colW; split <;> rfl

variable (L : Fin n → Fin nZ → ℝ) (pd pe : Fin n → ℝ)

/-- Missed detection or absence. -/
def miss0 (m : Fin n) : ℝ := 1 - pd m * pe m

/-- The tables in which track `m` exists. -/
noncomputable def missEx (m : Fin n) : Fin n → ℝ := Function.update (miss0 pd pe) m (pe m * (1 - pd m))

theorem sum_exists (hpp : ∀ m, pd m * pe m < 1) (R : Finset (Fin n)) (C : Finset (Fin nZ)) (m : Fin n) (hm : m ∈ R) :
    ∑ f ∈ Match R C, labOf pd pe (wt L (miss0 pd pe) R f) m (f m) = S L (missEx pd pe m) (fun _ => 1) R C := by
  rw [S_one]
  refine Finset.sum_congr rfl fun f _ => ?_
  have hd := (sub_pos.2 (hpp m)).ne'
  cases hf : f m with
  | some z =>
    simp only [labOf]
    rw [wt_mod L L (miss0 pd pe) (missEx pd pe m) R m hm f 1, one_mul]
    · intro m' h; simp [rowW, missEx, Function.update_of_ne h]
    · simp [rowW, hf]
  | none =>
    simp only [labOf]
    rw [wt_mod L L (miss0 pd pe) (missEx pd pe m) R m hm f (pe m * (1 - pd m) / (1 - pd m * pe m))]
    · ring
    · intro m' h; simp [rowW, missEx, Function.update_of_ne h]
    · simp only [rowW, hf, missEx, Function.update_self, miss0]
      rw [div_mul_cancel₀ _ hd]

theorem sum_seen (R : Finset (Fin n)) (C : Finset (Fin nZ)) (m : Fin n) (hm : m ∈ R) (z : Fin nZ) :
    ∑ f ∈ Match R C, (if f m = some z then labOf pd pe (wt L (miss0 pd pe) R f) m (some z) else 0) =
      S (rowMod L m fun z' => if z' = z then L m z else 0) (Function.update (miss0 pd pe) m 0) (fun _ => 1) R C := by
  rw [S_one]
  refine Finset.sum_congr rfl fun f _ => ?_
  rw [wt_mod L (rowMod L m fun z' => if z' = z then L m z else 0) (miss0 pd pe) (Function.update (miss0 pd pe) m 0) R m hm f (if f m = some z then 1 else 0)]
  · by_cases h : f m = some z <;> simp [h, labOf]
  · intro m' h
    unfold rowW
    cases f m' with
    | none => simp [Function.update_of_ne h]
    | some z' => simp [rowMod, h]
  · unfold rowW
    cases f m with
    | none => simp
    | some z' => by_cases h : z' = z <;> simp [rowMod, h]

theorem sum_miss (hpp : ∀ m, pd m * pe m < 1) (R : Finset (Fin n)) (C : Finset (Fin nZ)) (m : Fin n) (hm : m ∈ R) :
    ∑ f ∈ Match R C, (if f m = none then labOf pd pe (wt L (miss0 pd pe) R f) m (none : Option (Fin nZ)) else 0) =
      S (rowMod L m fun _ => 0) (missEx pd pe m) (fun _ => 1) R C := by
  rw [S_one]
  have hd := (sub_pos.2 (hpp m)).ne'
  refine Finset.sum_congr rfl fun f _ => ?_
  rw [wt_mod L (rowMod L m fun _ => 0) (miss0 pd pe) (missEx pd pe m) R m hm f (if f m = none then pe m * (1 - pd m) / (1 - pd m * pe m) else 0)]
  · by_cases h : f m = none
    · simp only [h, if_true, labOf]; ring
    · simp [h]
  · intro m' h
    unfold rowW
    cases f m' with
    | none => simp [missEx, Function.update_of_ne h]
    | some z' => simp [rowMod, h]
  · unfold rowW
    cases f m with
    | none =>
      simp only [missEx, Function.update_self, if_true, miss0]
      rw [div_mul_cancel₀ _ hd]
    | some z' => simp [rowMod]

/-- Summing over the row that takes column `z`. -/
theorem sum_col (R : Finset (Fin n)) (C : Finset (Fin nZ)) (z : Fin nZ) (hz : z ∈ C) (miss : Fin n → ℝ) :
    ∑ m ∈ R, ∑ f ∈ Match R C, (if f m = some z then wt L miss R f else 0) = S L miss (Function.update (fun _ => 1) z 0) R C := by
  classical
  rw [Finset.sum_comm]
  unfold S
  refine Finset.sum_congr rfl fun f hf => ?_
  rw [mem_Match] at hf
  have hcol : ∏ z' ∈ C, colW (Function.update (fun _ => (1 : ℝ)) z 0) f z' = if ∃ m, f m = some z then 1 else 0 := by
    rw [← Finset.mul_prod_erase C _ hz, Finset.prod_eq_one, mul_one]
    · unfold colW; simp
    · intro z' hz'
      unfold colW
      rw [Function.update_of_ne (Finset.ne_of_mem_erase hz')]
      split <;> rfl
  rw [hcol]
  by_cases h : ∃ m, f m = some z
  · obtain ⟨m, hm⟩ := h
    have hmR : m ∈ R := by
      by_contra hn
      rw [hf.1 m hn] at hm; cases hm
    rw [if_pos ⟨m, hm⟩, mul_one, Finset.sum_eq_single m]
    · rw [if_pos hm]; rfl
    · intro m' _ hne
      rw [if_neg]
      intro h'
      exact hne (hf.2.2 m' m z h' hm)
    · intro h; exact absurd hmR h
  · rw [if_neg h, mul_zero]
    refine Finset.sum_eq_zero fun m _ => ?_
    rw [if_neg (fun h' => h ⟨m, h'⟩)]

/-! ### Mixtures -/

/-- Weights multiplied by a constant. -/
noncomputable def scale (c : ℝ) (l : List (Gauss ℝ d)) : List (Gauss ℝ d) := l.map fun e => { e with w := e.w * c }

/-- Sum of weights. -/
noncomputable def wsum (l : List (Gauss ℝ d)) : ℝ := (l.map Gauss.w).sum

/-- Weights divided by their sum. -/
noncomputable def normed (l : List (Gauss ℝ d)) : List (Gauss ℝ d) := l.map fun e => { e with w := e.w / wsum l }

theorem gws (m : GMix ℝ d) (h : m.n = m.g.length) : getWeightSum m = some (wsum m.g) := by
  unfold getWeightSum
  rw [h]
  have : ∀ k, k ≤ m.g.length → (List.range k).foldlM (fun s i => (m.g[i]?).map fun e => s + e.w) (0 : ℝ) = some (wsum (m.g.take k)) := by
    intro k
    induction k with
    | zero => intro _; simp [wsum]
    | succ k ih =>
      intro hk
      rw [List.range_succ, List.foldlM_append, ih (by omega)]
      have hi : k < m.g.length := by omega
      rw [List.take_succ_eq_append_getElem hi]
      simp only [wsum, List.map_append, List.sum_append]
      simp [List.getElem?_eq_getElem hi, -List.map_take]
  have := this m.g.length le_rfl
  rw [List.take_length] at this
  simpa using this

theorem normalize_eq (m : GMix ℝ d) (h : m.n = m.g.length) (h0 : wsum m.g ≠ 0) : normalize m = some { m with g := normed m.g } := by
  unfold normalize
  rw [gws m h]
  simp only [Option.bind_some, if_neg h0]
  unfold normalizeWeights
  rw [gws m h]
  simp only [Option.some.injEq, GMix.mk.injEq, true_and, and_true]
  refine List.ext_getElem (by simp [normed]) fun i h1 h2 => ?_
  have : i < m.g.length := by simpa using h1
  simp [normed, h, this]

theorem wsum_scale (c : ℝ) (l : List (Gauss ℝ d)) : wsum (scale c l) = wsum l * c := by
  unfold wsum scale
  rw [List.map_map]
  exact List.sum_map_mul_right ..

theorem wsum_append (a b : List (Gauss ℝ d)) : wsum (a ++ b) = wsum a + wsum b := by simp [wsum]

/-- The components of an updated track before the normalisation. -/
noncomputable def built (mix : GMix ℝ d) (mm : Fin nZ → GMix ℝ d) (mw : Option (Fin nZ) → ℝ) (cols : List (Fin nZ)) : List (Gauss ℝ d) :=
  scale (mw none) mix.g ++ cols.flatMap fun c => scale (mw (some c)) (mm c).g

theorem wsum_built (mix : GMix ℝ d) (mm : Fin nZ → GMix ℝ d) (mw : Option (Fin nZ) → ℝ) (cols : List (Fin nZ)) :
    wsum (built mix mm mw cols) = wsum mix.g * mw none + (cols.map fun c => wsum (mm c).g * mw (some c)).sum := by
  unfold built
  rw [wsum_append, wsum_scale]
  congr 1
  induction cols with
  | nil => simp [wsum]
  | cons c cols ih => rw [List.flatMap_cons, wsum_append, wsum_scale, ih, List.map_cons, List.sum_cons]

theorem build_fold (mm : Fin nZ → GMix ℝ d) (hmm : ∀ c, (mm c).n = (mm c).g.length) (mw : Fin nZ → ℝ) (cols : List (Fin nZ)) : ∀ m0 : GMix ℝ d,
    m0.n = m0.g.length → (cols.foldl (fun m c => (addGM m (mm c) (mw c)).1) m0).g = m0.g ++ cols.flatMap (fun c => scale (mw c) (mm c).g) ∧
      (cols.foldl (fun m c => (addGM m (mm c) (mw c)).1) m0).n = ((cols.foldl (fun m c => (addGM m (mm c) (mw c)).1) m0).g.length : Int) := by
  induction cols with
  | nil => intro m0 h; simp [h]
  | cons c cols ih =>
    intro m0 h
    rw [List.foldl_cons]
    obtain ⟨h1, h2⟩ := ih (addGM m0 (mm c) (mw c)).1 (by simp [addGM, h, hmm c])
    refine ⟨?_, h2⟩
    rw [h1]
    simp [addGM, scale]

/-- One row: the updated track. -/
theorem trackStep_eq (cols : List (Fin nZ)) (lik : ℝ) (hlik : lik ≠ 0) (s : St d n nZ) (r : Fin n) (h1 : (s.mix r).n = (s.mix r).g.length)
    (h2 : ∀ c, (s.mm r c).n = (s.mm r c).g.length) (h3 : wsum (built (s.mix r) (s.mm r) (s.mw r) cols) ≠ 0) :
    ∃ m2 : GMix ℝ d, m2.g = normed (built (s.mix r) (s.mm r) (s.mw r) cols) ∧ m2.n = m2.g.length ∧
      trackStep cols lik s r = some { s with P := Function.update s.P r (s.upd r / lik), upd := Function.update s.upd r (s.upd r / lik), mix := Function.update s.mix r m2, mm := fun m c => if m = r ∧ c ∈ cols then empty else s.mm m c } := by
  obtain ⟨hb1, hb2⟩ := build_fold (s.mm r) h2 (fun c => s.mw r (some c)) cols (multiplyWeights (s.mix r) (s.mw r none)) (by simp [multiplyWeights, h1])
  have hb : (cols.foldl (fun m c => (addGM m (s.mm r c) (s.mw r (some c))).1) (multiplyWeights (s.mix r) (s.mw r none))).g =
      built (s.mix r) (s.mm r) (s.mw r) cols := hb1
  refine ⟨{ (cols.foldl (fun m c => (addGM m (s.mm r c) (s.mw r (some c))).1) (multiplyWeights (s.mix r) (s.mw r none))) with
    g := normed (built (s.mix r) (s.mm r) (s.mw r) cols) }, rfl, ?_, ?_⟩
  · simp only []
    rw [hb2, hb]
    simp [normed]
  · unfold trackStep
    rw [if_neg hlik]
    simp only
    rw [normalize_eq _ hb2 (by rw [hb]; exact h3), hb]
    rfl

/-- The loop over the rows of a block. -/
theorem track_fold (cols : List (Fin nZ)) (lik : ℝ) (hlik : lik ≠ 0) (rows : List (Fin n)) : ∀ s : St d n nZ, rows.Nodup →
    (∀ r ∈ rows, (s.mix r).n = (s.mix r).g.length ∧ (∀ c, (s.mm r c).n = (s.mm r c).g.length) ∧ wsum (built (s.mix r) (s.mm r) (s.mw r) cols) ≠ 0) →
    ∃ s', rows.foldlM (trackStep cols lik) s = some s' ∧ s'.mw = s.mw ∧ s'.l = s.l ∧
      (∀ r, r ∉ rows → s'.P r = s.P r ∧ s'.upd r = s.upd r ∧ s'.mix r = s.mix r ∧ s'.mm r = s.mm r) ∧
      ∀ r ∈ rows, s'.P r = s.upd r / lik ∧ (s'.mix r).g = normed (built (s.mix r) (s.mm r) (s.mw r) cols) ∧ (s'.mix r).n = (s'.mix r).g.length := by
  induction rows with
  | nil => intro s _ _; exact ⟨s, rfl, rfl, rfl, fun _ _ => ⟨rfl, rfl, rfl, rfl⟩, fun r hr => by simp at hr⟩
  | cons r rows ih =>
    intro s hnd h
    obtain ⟨hr1, hr2⟩ := List.nodup_cons.1 hnd
    obtain ⟨a1, a2, a3⟩ := h r (by simp)
    obtain ⟨m2, b1, b2, b3⟩ := trackStep_eq cols lik hlik s r a1 a2 a3
    have hne : ∀ x ∈ rows, x ≠ r := fun x hx e => hr1 (e ▸ hx)
    obtain ⟨s', c1, c2, c3, c4, c5⟩ := ih { s with P := Function.update s.P r (s.upd r / lik), upd := Function.update s.upd r (s.upd r / lik), mix := Function.update s.mix r m2, mm := fun m c => if m = r ∧ c ∈ cols then empty else s.mm m c } hr2 (by
      intro x hx
      obtain ⟨e1, e2, e3⟩ := h x (List.mem_cons_of_mem _ hx)
      simp only [Function.update_of_ne (hne x hx), hne x hx, false_and, if_false]
      exact ⟨e1, e2, e3⟩)
    refine ⟨s', by rw [List.foldlM_cons, b3]; exact c1, c2, c3, ?_, ?_⟩
    · intro x hx
      have hx1 : x ≠ r := fun e => hx (by simp [e])
      have hx2 : x ∉ rows := fun e => hx (List.mem_cons_of_mem _ e)
      obtain ⟨d1, d2, d3, d4⟩ := c4 x hx2
      refine ⟨d1.trans (Function.update_of_ne hx1 _ _), d2.trans (Function.update_of_ne hx1 _ _), d3.trans (Function.update_of_ne hx1 _ _), d4.trans ?_⟩
      funext c
      simp [hx1]
    · intro x hx
      rcases List.mem_cons.1 hx with rfl | hx
      · obtain ⟨d1, d2, d3, d4⟩ := c4 x hr1
        refine ⟨d1.trans (Function.update_self ..), ?_, ?_⟩
        · rw [d3]; simp only [Function.update_self]; exact b1
        · rw [d3]; simp only [Function.update_self]; exact b2
      · obtain ⟨d1, d2, d3⟩ := c5 x hx
        have hx1 := hne x hx
        refine ⟨?_, ?_, d3⟩
        · rw [d1]; simp only [Function.update_of_ne hx1]
        · rw [d2]; simp only [Function.update_of_ne hx1, hx1, false_and, if_false]

/-- The loop over the rows of a partition without entries. -/
theorem miss_fold (pd pe : Fin n → ℝ) (hden : ∀ m, 1 - pd m * pe m ≠ 0) (rows : List (Fin n)) : ∀ P : Fin n → ℝ,
    rows.foldlM (missStep pd pe) P = some fun m => if m ∈ rows then pe m * (1 - pd m) / (1 - pd m * pe m) else P m := by
  induction rows with
  | nil => intro P; simp
  | cons r rows ih =>
    intro P
    rw [List.foldlM_cons]
    unfold missStep
    rw [if_neg (hden r)]
    show rows.foldlM (missStep pd pe) _ = _
    rw [ih]
    congr 1
    funext m
    by_cases h : m ∈ rows
    · simp [h]
    · by_cases h' : m = r
      · subst h'; simp [h]
      · simp [h, h', Function.update_of_ne h']

end LMB
end RFS
