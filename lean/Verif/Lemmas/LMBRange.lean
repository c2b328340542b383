import Verif.Lemmas.LMBEvents

/-!
Ranges of the tables of the LMB map update, for any list of assignments.
-/

namespace RFS
namespace LMBProps
open GM GMB CBM Partition RFSLik Assoc PartitionProps RFSLikProps LMB

variable {d n nZ : Nat}

/-- Invariant of the accumulation over the assignments of a block: what a row of the block has received is between 0 and the
likelihood received; other rows receive nothing. -/
def TabOk (rows : List (Fin n)) (base : Fin n → ℝ) (t : Tab n nZ) : Prop :=
  ∀ m, 0 ≤ t.lik ∧ base m ≤ t.upd m ∧ t.upd m ≤ base m + (if m ∈ rows then t.lik else 0)

theorem rowStep_range (pd pe : Fin n → ℝ) (hpd : ∀ m, 0 ≤ pd m ∧ pd m ≤ 1) (hpe : ∀ m, 0 ≤ pe m ∧ pe m ≤ 1) (cols : List (Fin nZ)) (w : ℝ) (hw : 0 ≤ w)
    (xs : List (Fin n × Nat)) : ∀ t t', (xs.map Prod.fst).Nodup → xs.foldlM (rowStep pd pe cols w) t = some t' → t'.lik = t.lik ∧
      ∀ m, t.upd m ≤ t'.upd m ∧ t'.upd m ≤ t.upd m + (if m ∈ xs.map Prod.fst then w else 0) := by
  induction xs with
  | nil => intro t t' _ h; cases h; exact ⟨rfl, fun m => by simp⟩
  | cons x xs ih =>
    intro t t' hnd h
    rw [List.map_cons, List.nodup_cons] at hnd
    rw [List.foldlM_cons] at h
    cases h1 : rowStep pd pe cols w t x with
    | none => rw [h1] at h; cases h
    | some t1 =>
      rw [h1] at h
      obtain ⟨e1, e2⟩ := ih t1 t' hnd.2 h
      have hstep : t1.lik = t.lik ∧ ∀ m, t.upd m ≤ t1.upd m ∧ t1.upd m ≤ t.upd m + (if m = x.1 then w else 0) := by
        unfold rowStep at h1
        split at h1
        · cases h1
          refine ⟨rfl, fun m => ?_⟩
          simp only
          split <;> constructor <;> linarith
        · split at h1
          · cases h1
          · rename_i hden
            cases h1
            refine ⟨rfl, fun m => ?_⟩
            obtain ⟨a1, a2⟩ := hpd x.1
            obtain ⟨b1, b2⟩ := hpe x.1
            have hpp : pd x.1 * pe x.1 ≤ 1 := mul_le_one₀ a2 b1 b2
            have hpos : 0 < 1 - pd x.1 * pe x.1 := lt_of_le_of_ne (by linarith) (Ne.symm hden)
            have hl0 : 0 ≤ w * pe x.1 * (1 - pd x.1) / (1 - pd x.1 * pe x.1) := div_nonneg (mul_nonneg (mul_nonneg hw b1) (by linarith)) hpos.le
            have hl1 : w * pe x.1 * (1 - pd x.1) / (1 - pd x.1 * pe x.1) ≤ w := by
              rw [div_le_iff₀ hpos]
              nlinarith [mul_nonneg hw (sub_nonneg.2 b2)]
            simp only
            split <;> constructor <;> linarith
      refine ⟨e1.trans hstep.1, fun m => ?_⟩
      obtain ⟨c1, c2⟩ := e2 m
      obtain ⟨c3, c4⟩ := hstep.2 m
      refine ⟨by linarith, ?_⟩
      by_cases hm : m = x.1
      · subst hm
        rw [if_neg hnd.1] at c2
        rw [if_pos rfl] at c4
        rw [if_pos (by simp)]
        linarith
      · rw [if_neg hm] at c4
        have : (m ∈ (x :: xs).map Prod.fst) ↔ m ∈ xs.map Prod.fst := by simp [hm]
        simp only [this]
        linarith

theorem zip_keys_nodup (rows : List (Fin n)) (o : List Nat) (h : rows.Nodup) : ((rows.zip o).map Prod.fst).Nodup := by
  have : (rows.zip o).map Prod.fst = rows.take o.length := by
    induction rows generalizing o with
    | nil => simp
    | cons r rows ih =>
      cases o with
      | nil => simp
      | cons a o => simp [ih o (List.nodup_cons.1 h).2]
  rw [this]
  exact h.sublist (List.take_sublist _ _)

theorem assign_range (pd pe : Fin n → ℝ) (hpd : ∀ m, 0 ≤ pd m ∧ pd m ≤ 1) (hpe : ∀ m, 0 ≤ pe m ∧ pe m ≤ 1) (rows : List (Fin n)) (hr : rows.Nodup)
    (cols : List (Fin nZ)) (base : Fin n → ℝ) (t t' : Tab n nZ) (o : List Nat) (w : ℝ) (hw : 0 ≤ w) (ht : TabOk rows base t)
    (h : assign pd pe rows cols t o w = some t') : TabOk rows base t' := by
  unfold assign at h
  obtain ⟨h1, h2⟩ := rowStep_range pd pe hpd hpe cols w hw _ _ _ (zip_keys_nodup rows o hr) h
  intro m
  obtain ⟨a, b, c⟩ := ht m
  obtain ⟨e, f⟩ := h2 m
  simp only at e f h1
  rw [h1]
  refine ⟨by linarith, by linarith, ?_⟩
  have hsub : m ∈ (rows.zip o).map Prod.fst → m ∈ rows := by
    intro h
    obtain ⟨x, hx, rfl⟩ := List.mem_map.1 h
    exact (List.of_mem_zip hx).1
  by_cases hm : m ∈ rows
  · rw [if_pos hm] at c ⊢
    split at f <;> linarith
  · rw [if_neg hm] at c ⊢
    rw [if_neg (fun h => hm (hsub h))] at f
    linarith

theorem fold_range {α : Type*} (rows : List (Fin n)) (base : Fin n → ℝ) (step : Tab n nZ → α → Option (Tab n nZ)) (l : List α)
    (hstep : ∀ t t', ∀ a ∈ l, TabOk rows base t → step t a = some t' → TabOk rows base t') : ∀ t t', TabOk rows base t → l.foldlM step t = some t' → TabOk rows base t' := by
  induction l with
  | nil => intro t t' ht h; cases h; exact ht
  | cons a l ih =>
    intro t t' ht h
    rw [List.foldlM_cons] at h
    cases h1 : step t a with
    | none => rw [h1] at h; cases h
    | some t1 =>
      rw [h1] at h
      exact ih (fun t t' b hb => hstep t t' b (List.mem_cons_of_mem _ hb)) t1 t' (hstep t t1 a (by simp) ht h1) h

theorem lex_range (rows : List (Fin n)) (base : Fin n → ℝ) (step : Tab n nZ → List Nat → Option (Tab n nZ)) (hstep : ∀ t t' o, TabOk rows base t → step t o = some t' → TabOk rows base t') :
    ∀ fuel st t t', TabOk rows base t → lexTab step fuel st t = some t' → TabOk rows base t' := by
  intro fuel
  induction fuel with
  | zero => intro st t t' _ h; cases h
  | succ fuel ih =>
    intro st t t' ht h
    unfold lexTab at h
    split at h
    · cases h
    · rename_i o k st' _
      split at h
      · cases h; exact ht
      · cases h1 : step t o with
        | none => rw [h1] at h; cases h
        | some t1 => rw [h1] at h; exact ih st' t1 t' (hstep t t1 o ht h1) h

theorem ex_nonneg (x : WithBot ℝ) : 0 ≤ ex x := by
  cases x with
  | bot => exact le_refl _
  | coe x => exact (Real.exp_pos x).le

theorem track_range (cols : List (Fin nZ)) (lik : ℝ) (rows : List (Fin n)) : ∀ s s' : St d n nZ, rows.Nodup →
    rows.foldlM (trackStep cols lik) s = some s' → (∀ r, r ∉ rows → s'.P r = s.P r ∧ s'.upd r = s.upd r) ∧ ∀ r ∈ rows, s'.P r = s.upd r / lik ∧ lik ≠ 0 := by
  induction rows with
  | nil => intro s s' _ h; cases h; exact ⟨fun _ _ => ⟨rfl, rfl⟩, fun r hr => by simp at hr⟩
  | cons r rows ih =>
    intro s s' hnd h
    obtain ⟨hr1, hr2⟩ := List.nodup_cons.1 hnd
    rw [List.foldlM_cons] at h
    cases h1 : trackStep cols lik s r with
    | none => rw [h1] at h; cases h
    | some s1 =>
      rw [h1] at h
      obtain ⟨e1, e2⟩ := ih s1 s' hr2 h
      unfold trackStep at h1
      split at h1
      · cases h1
      · rename_i hl
        simp only at h1
        obtain ⟨m2, -, rfl⟩ := Option.map_eq_some_iff.1 h1
        refine ⟨fun x hx => ?_, fun x hx => ?_⟩
        · have hx1 : x ≠ r := fun e => hx (by simp [e])
          obtain ⟨a, b⟩ := e1 x (fun e => hx (List.mem_cons_of_mem _ e))
          exact ⟨a.trans (Function.update_of_ne hx1 _ _), b.trans (Function.update_of_ne hx1 _ _)⟩
        · rcases List.mem_cons.1 hx with rfl | hx
          · exact ⟨(e1 x hr1).1.trans (Function.update_self ..), hl⟩
          · obtain ⟨a, b⟩ := e2 x hx
            have hx1 : x ≠ r := fun e => hr1 (e ▸ hx)
            refine ⟨a.trans ?_, b⟩
            simp only [Function.update_of_ne hx1]

theorem miss_range (pd pe : Fin n → ℝ) (hpd : ∀ m, 0 ≤ pd m ∧ pd m ≤ 1) (hpe : ∀ m, 0 ≤ pe m ∧ pe m ≤ 1) (rows : List (Fin n)) : ∀ P P' : Fin n → ℝ,
    (∀ m, 0 ≤ P m ∧ P m ≤ 1) → rows.foldlM (missStep pd pe) P = some P' → ∀ m, 0 ≤ P' m ∧ P' m ≤ 1 := by
  induction rows with
  | nil => intro P P' h h1; cases h1; exact h
  | cons r rows ih =>
    intro P P' h h1
    rw [List.foldlM_cons] at h1
    cases h2 : missStep pd pe P r with
    | none => rw [h2] at h1; cases h1
    | some P1 =>
      rw [h2] at h1
      refine ih P1 P' ?_ h1
      unfold missStep at h2
      split at h2
      · cases h2
      · rename_i hden
        cases h2
        intro m
        by_cases hm : m = r
        · subst hm
          rw [Function.update_self]
          obtain ⟨a1, a2⟩ := hpd m
          obtain ⟨b1, b2⟩ := hpe m
          have hpp : pd m * pe m ≤ 1 := mul_le_one₀ a2 b1 b2
          have hpos : 0 < 1 - pd m * pe m := lt_of_le_of_ne (by linarith) (Ne.symm hden)
          refine ⟨div_nonneg (mul_nonneg b1 (by linarith)) hpos.le, ?_⟩
          rw [div_le_one hpos]
          nlinarith
        · rw [Function.update_of_ne hm]; exact h m

end LMBProps
end RFS
