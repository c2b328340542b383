import Verif.Lemmas.FastFine
import Verif.Props.FastThreads

/-!
Properties of the fine steps of `FastSLAM::update` (`Verif.Model.FastFine`): no data race, and the same results as with one particle after the other.
-/

set_option linter.unusedSectionVars false

namespace RFS
namespace FastFineProps
open FastSLAM FastRuns FastFine
open FastThreads (Conc Job Safe)
open FastThreadsProps (ordered Whole Place places_differ place_cases)
open FastSLAMProps (twoEnv twoCfg twoMurty two_hyp)

variable {X Lm : Type}

/-- The next steps of `i` and `j` touch the same location, one of them writes it, and not both are in the critical section. -/
def Race {nZ : Nat} (owner : Nat → Nat) (c : Fine X Lm nZ) (i j : Nat) : Prop :=
  ∃ a ∈ accesses (owner i) c i, ∃ b ∈ accesses (owner j) c j, a.loc = b.loc ∧ (a.write = true ∨ b.write = true) ∧ ¬ (a.crit = true ∧ b.crit = true)

theorem run_cons {cfg : Cfg} {s : Scan X Lm} {σ : List Nat} {i : Nat} {c d : Fine X Lm s.nZ} : FastFine.run cfg s (i :: σ) c = .ok d ↔ ∃ c1, FastFine.tick cfg s c i = .ok c1 ∧ FastFine.run cfg s σ c1 = .ok d := by
  unfold FastFine.run
  rw [List.foldlM_cons]
  cases FastFine.tick cfg s c i with
  | error e => simp [bind, Except.bind]
  | ok c1 => simp [bind, Except.bind]

theorem crun_append {cfg : Cfg} {s : Scan X Lm} {σ τ : List Nat} {c d : Conc X Lm s.nZ} (h : FastThreads.run cfg s σ c = .ok d) : FastThreads.run cfg s (σ ++ τ) c = FastThreads.run cfg s τ d := by
  unfold FastThreads.run at *
  rw [List.foldlM_append, h]
  rfl

/-- Every fine run follows a coarse one. -/
theorem run_rel {cfg : Cfg} {s : Scan X Lm} {N0 : Nat} : ∀ (σ : List Nat) (c : Fine X Lm s.nZ) (d : Conc X Lm s.nZ), (∀ j ∈ σ, j < N0) → Rel cfg s N0 c d →
    (∀ c', FastFine.run cfg s σ c = .ok c' → ∃ τ d', (∀ j ∈ τ, j ∈ σ) ∧ FastThreads.run cfg s τ d = .ok d' ∧ Rel cfg s N0 c' d') ∧
    (∀ e, FastFine.run cfg s σ c = .error e → ∃ τ, (∀ j ∈ τ, j ∈ σ) ∧ FastThreads.run cfg s τ d = .error e) := by
  intro σ
  induction σ with
  | nil => intro c d _ h; exact ⟨fun c' hc => ⟨[], d, by simp, rfl, by cases hc; exact h⟩, fun e he => by cases he⟩
  | cons i σ ih =>
    intro c d hlt h
    obtain ⟨t1, t2⟩ := tick_rel h (hlt i List.mem_cons_self)
    have hr : FastFine.run cfg s (i :: σ) c = (FastFine.tick cfg s c i >>= FastFine.run cfg s σ) := List.foldlM_cons
    cases ht : FastFine.tick cfg s c i with
    | error e =>
      rw [hr, ht]
      refine ⟨fun c' hc => (by cases hc), fun e' he => ?_⟩
      cases he
      exact ⟨[i], by simp, by rw [run_one]; exact t2 e ht⟩
    | ok c1 =>
      rw [hr, ht]
      obtain ⟨τ, d1, m, r1, rel1⟩ := t1 c1 ht
      obtain ⟨a, b⟩ := ih c1 d1 (fun j hj => hlt j (List.mem_cons_of_mem _ hj)) rel1
      refine ⟨fun c' hc => ?_, fun e he => ?_⟩
      · obtain ⟨τ', d', m', r', rel'⟩ := a c' hc
        refine ⟨τ ++ τ', d', fun j hj => ?_, by rw [crun_append r1]; exact r', rel'⟩
        rcases List.mem_append.1 hj with hj | hj
        · rw [m j hj]; exact List.mem_cons_self
        · exact List.mem_cons_of_mem _ (m' j hj)
      · obtain ⟨τ', m', r'⟩ := b e he
        refine ⟨τ ++ τ', fun j hj => ?_, by rw [crun_append r1]; exact r'⟩
        rcases List.mem_append.1 hj with hj | hj
        · rw [m j hj]; exact List.mem_cons_self
        · exact List.mem_cons_of_mem _ (m' j hj)

/-- Where an iteration may go: its own places, and new ones in the critical section. -/
def May {nZ : Nat} (c : Fine X Lm nZ) (d : Conc X Lm nZ) (i : Nat) (a : Acc) : Prop :=
  match a.loc with
  | .set => a.crit = true
  | .part k | .cand k | .fov k => Place d i k ∨ (a.crit = true ∧ c.f.parts.length ≤ k)
  | _ => a.write = false

theorem accesses_may {cfg : Cfg} {s : Scan X Lm} {N0 : Nat} {c : Fine X Lm s.nZ} {d : Conc X Lm s.nZ} (h : Rel cfg s N0 c d) (t i : Nat) (a : Acc) (ha : a ∈ accesses t c i) : May c d i a := by
  unfold accesses at ha
  rcases h.corr i with ⟨hc, hd⟩ | ⟨hc, hd⟩ | ⟨p, das, hd, hp, hy, hn, hc⟩ | ⟨jb, hd, hc⟩
  · rw [hc] at ha
    simp only [List.mem_singleton] at ha
    subst ha
    rfl
  · rw [hc] at ha
    simp only [List.mem_cons, List.not_mem_nil, or_false] at ha
    rcases ha with rfl | rfl | rfl
    · exact Or.inl (Or.inl rfl)
    · exact Or.inl (Or.inl rfl)
    · rfl
  · rw [hc] at ha
    simp only [List.mem_append, List.mem_cons, List.not_mem_nil, or_false, List.mem_map, List.mem_range] at ha
    rcases ha with ((rfl | rfl | rfl | rfl | rfl) | ⟨g, hg, rfl⟩) | ha
    · rfl
    · rfl
    · exact Or.inl (Or.inl rfl)
    · exact Or.inl (Or.inl rfl)
    · rfl
    · exact Or.inr ⟨rfl, Nat.le_add_right _ _⟩
    · split at ha
      · simp only [List.mem_cons, List.mem_map, List.mem_range] at ha
        rcases ha with rfl | ⟨g, hg, rfl⟩
        · exact Or.inl (Or.inl rfl)
        · exact Or.inr ⟨rfl, Nat.le_add_right _ _⟩
      · simp at ha
  · rw [hc] at ha
    obtain ⟨n, x, lms, rest, hh⟩ := jb
    cases rest with
    | nil => simp [pl] at ha
    | cons da rest =>
      have hpl : Place d i (slot i n hh) := Or.inr ⟨_, hd, hh, by simp only [List.length_cons]; omega, rfl⟩
      simp only [pl, List.zipIdx_cons, List.map_cons, List.mem_cons, List.not_mem_nil, or_false] at ha
      rcases ha with rfl | rfl | rfl | rfl | rfl | rfl | rfl | rfl | rfl | rfl
      · exact Or.inl hpl
      · exact Or.inl hpl
      · exact Or.inl (Or.inl rfl)
      · exact Or.inl hpl
      · exact Or.inl hpl
      · exact Or.inl hpl
      · exact Or.inl hpl
      · rfl
      · rfl
      · rfl

/-! ### C248 -/

/-- **C248**, no data race: whatever the schedule, two different iterations are never both about to touch the same location, one of them to write it, without both being in the critical section. Which threads run them does not matter. -/
theorem C248_no_race (cfg : Cfg) (s : Scan X Lm) (f : Filt X Lm) (σ : List Nat) (hlt : ∀ j ∈ σ, j < f.parts.length) (c : Fine X Lm s.nZ) (hc : FastFine.run cfg s σ (FastFine.fresh s.nZ f) = .ok c) (owner : Nat → Nat) (i j : Nat)
    (hi : i < f.parts.length) (hj : j < f.parts.length) (hij : i ≠ j) : ¬ Race owner c i j := by
  obtain ⟨τ, d, -, -, h⟩ := (run_rel (N0 := f.parts.length) σ _ _ hlt (fresh_rel cfg s f)).1 c hc
  rintro ⟨a, ha, b, hb, hl, hw, hcr⟩
  have ma := accesses_may h (owner i) i a ha
  have mb := accesses_may h (owner j) j b hb
  have key : ∀ k, (Place d i k ∨ (a.crit = true ∧ c.f.parts.length ≤ k)) → (Place d j k ∨ (b.crit = true ∧ c.f.parts.length ≤ k)) → False := by
    intro k h1 h2
    rcases h1 with h1 | ⟨h1, l1⟩
    · rcases h2 with h2 | ⟨-, l2⟩
      · exact places_differ h.safe hi hj hij h1 h2
      · have := (place_cases h.safe hi h1).1
        have := h.len
        omega
    · rcases h2 with h2 | ⟨h2, -⟩
      · have := (place_cases h.safe hj h2).1
        have := h.len
        omega
      · exact hcr ⟨h1, h2⟩
  unfold May at ma mb
  rw [← hl] at mb
  cases hloc : a.loc with
  | set => rw [hloc] at ma mb; exact hcr ⟨ma, mb⟩
  | part k => rw [hloc] at ma mb; exact key k ma mb
  | cand k => rw [hloc] at ma mb; exact key k ma mb
  | fov k => rw [hloc] at ma mb; exact key k ma mb
  | kf t => rw [hloc] at ma mb; simp only at ma mb; simp [ma, mb] at hw
  | meas => rw [hloc] at ma mb; simp only at ma mb; simp [ma, mb] at hw
  | flag => rw [hloc] at ma mb; simp only at ma mb; simp [ma, mb] at hw

/-- The particle copied, and the copies put behind the others. -/
theorem copy_get {S : Type} {P Q : List (PF.Part S ℝ)} {i n : Nat} {w : ℝ} (h : PF.copyParticle P i n w = some Q) : Q.length = P.length + n ∧ ∀ k, k ≠ i → (k < P.length ∨ P.length + n ≤ k) → Q[k]? = P[k]? := by
  unfold PF.copyParticle at h
  split at h
  · cases h
  · rename_i p hp
    simp only [Option.some.injEq] at h
    subst h
    refine ⟨by simp, fun k hk hr => ?_⟩
    rcases hr with hr | hr
    · rw [List.getElem?_append_left (by rw [List.length_set]; exact hr), List.getElem?_set_ne (Ne.symm hk)]
    · rw [List.getElem?_eq_none (by simpa using hr), List.getElem?_eq_none (by omega)]

/-- **C248**, the accesses are all: a step changes no location but those it is said to write. -/
theorem C248_frame (cfg : Cfg) (s : Scan X Lm) (c c' : Fine X Lm s.nZ) (t i : Nat) (h : FastFine.tick cfg s c i = .ok c') (l : Loc) (hl : ∀ a ∈ accesses t c i, a.write = true → a.loc ≠ l) : l.same c c' ∧ ∀ j, j ≠ i → c'.ph j = c.ph j := by
  unfold FastFine.tick at h
  unfold accesses at hl
  split at h
  · unfold FastFine.take at h
    split at h
    · cases h
      exact ⟨by cases l <;> simp [Loc.same], fun j hj => Function.update_of_ne hj _ _⟩
    · cases h
  · rename_i hph
    rw [hph] at hl
    have hpi : ∀ k, l = .part k → k ≠ i := fun k hk e => hl ⟨.part i, true, false⟩ (by simp) rfl (by rw [hk, e])
    unfold FastFine.assoc at h
    split at h
    · cases h
    · split at h
      · cases h
      · split at h
        · cases h
        · split at h
          · cases h
            refine ⟨?_, fun j hj => Function.update_of_ne hj _ _⟩
            cases l with
            | part k => simp only [Loc.same]; rw [List.getElem?_set_ne (Ne.symm (hpi k rfl))]
            | _ => simp [Loc.same]
          · cases h
            exact ⟨by cases l <;> simp [Loc.same], fun j hj => Function.update_of_ne hj _ _⟩
  · rename_i x lms das w hph
    rw [hph] at hl
    simp only [List.mem_append, List.mem_cons, List.not_mem_nil, or_false, List.mem_map, List.mem_range] at hl
    unfold FastFine.dup at h
    split at h
    · cases h
    · rename_i P hP
      split at h
      · cases h
      · cases h
        obtain ⟨q1, q2⟩ := copy_get hP
        refine ⟨?_, fun j hj => Function.update_of_ne hj _ _⟩
        cases l with
        | set => exact absurd rfl (hl ⟨.set, true, true⟩ (by simp) rfl)
        | part k =>
          have hk : k ≠ i := fun e => hl ⟨.part i, true, true⟩ (by simp) rfl (by rw [e])
          simp only [Loc.same]
          refine (q2 k hk ?_).symm
          by_contra hc
          push Not at hc
          exact hl ⟨.part (c.f.parts.length + (k - c.f.parts.length)), true, true⟩ (Or.inl (Or.inr ⟨k - c.f.parts.length, by omega, rfl⟩)) rfl (by simp only; rw [Nat.add_sub_cancel' hc.1])
        | cand k =>
          simp only [Loc.same]
          cases hres : c.f.resampled with
          | false => rfl
          | true =>
          refine (FastThreads.copyCands_other _ _ _ _ _ _ fun g g1 g2 e => ?_).symm
          unfold slot at e
          rw [if_neg (by omega)] at e
          exact hl ⟨.cand (c.f.parts.length + (k - c.f.parts.length)), true, true⟩ (Or.inr (by rw [hres, if_pos rfl]; exact List.mem_cons_of_mem _ (List.mem_map.2 ⟨k - c.f.parts.length, List.mem_range.2 (by omega), rfl⟩))) rfl (by simp only; rw [Nat.add_sub_cancel' (by omega)])
        | _ => simp [Loc.same]
  · cases h
    exact ⟨by cases l <;> simp [Loc.same], fun j _ => rfl⟩
  · rename_i x lms k da rest hph
    rw [hph] at hl
    simp only [List.mem_cons, List.not_mem_nil, or_false] at hl
    unfold FastFine.hyp at h
    split at h
    · split at h
      · cases h
      · cases h
        refine ⟨?_, fun j hj => Function.update_of_ne hj _ _⟩
        cases l with
        | part k' =>
          have hk : k ≠ k' := fun e => hl ⟨.part k, true, false⟩ (by simp) rfl (by rw [e])
          simp only [Loc.same]
          rw [List.getElem?_set_ne hk]
        | cand k' =>
          have hk : k ≠ k' := fun e => hl ⟨.cand k, true, false⟩ (by simp) rfl (by rw [e])
          simp only [Loc.same]
          rw [List.getElem?_set_ne hk]
        | _ => simp [Loc.same]
    · cases h

/-- The candidates of the copies. -/
theorem copyCands_new {i n nH : Nat} {C : List (List (Cand Lm))} {g : Nat} (h0 : 0 < g) (hg : g < nH) (hn : nH ≤ n) (hl : n ≤ C.length) : (FastThreads.copyCands i n nH true C)[slot i n g]? = some ((C[i]?).getD []) := by
  unfold FastThreads.copyCands
  rw [if_pos rfl]
  have key : ∀ (l : List Nat) (D : List (List (Cand Lm))), n ≤ D.length → (∀ a ∈ l, 0 < a ∧ a < nH) → (g ∈ l ∨ D[slot i n g]? = some ((C[i]?).getD [])) →
      (l.foldl (fun D h => D.set (slot i n h) ((C[i]?).getD [])) D)[slot i n g]? = some ((C[i]?).getD []) := by
    intro l
    induction l with
    | nil => intro D _ _ h; simpa using h
    | cons a l ih =>
      intro D hD hl h
      rw [List.foldl_cons]
      refine ih _ (by simpa using hD) (fun b hb => hl b (List.mem_cons_of_mem _ hb)) ?_
      by_cases e : slot i n a = slot i n g
      · right
        rw [e, List.getElem?_set_self]
        unfold slot
        rw [if_neg (by omega)]
        omega
      · rcases h with h | h
        · rcases List.mem_cons.1 h with h | h
          · exact absurd (by rw [h]) e
          · exact Or.inl h
        · right
          rw [List.getElem?_set_ne e, h]
  exact key _ C hl (fun a ha => by rw [List.mem_range'_1] at ha; omega) (Or.inl (by rw [List.mem_range'_1]; omega))

/-- **C248**, the accesses are all: what a step does depends on the locations only that it is said to read (and on the size of `landmarkCandidates_`, which no step changes). -/
theorem C248_local (cfg : Cfg) (s : Scan X Lm) (c1 c2 c1' : Fine X Lm s.nZ) (t i : Nat) (hp : c1.ph i = c2.ph i) (hn : c1.f.cands.length = c2.f.cands.length) (hr : ∀ a ∈ accesses t c1 i, a.write = false → a.loc.same c1 c2)
    (h : FastFine.tick cfg s c1 i = .ok c1') :
    ∃ c2', FastFine.tick cfg s c2 i = .ok c2' ∧ c1'.ph i = c2'.ph i ∧ c1'.f.cands.length = c2'.f.cands.length ∧ ∀ a ∈ accesses t c1 i, a.write = true → a.loc.same c1' c2' := by
  unfold FastFine.tick at h ⊢
  unfold accesses at hr ⊢
  rw [← hp]
  split at h
  · rename_i hph
    rw [hph] at hr ⊢
    have hs : c1.f.parts.length = c2.f.parts.length := hr ⟨.set, false, true⟩ (by simp) rfl
    unfold FastFine.take at h ⊢
    rw [← hs]
    split at h
    · rename_i hlt
      cases h
      refine ⟨_, if_pos hlt, by simp, hn, fun a ha hw => ?_⟩
      simp only [List.mem_singleton] at ha
      subst ha
      cases hw
    · cases h
  · rename_i hph
    rw [hph] at hr ⊢
    have hs : c1.f.parts[i]? = c2.f.parts[i]? := hr ⟨.part i, false, false⟩ (by simp) rfl
    have hsl : ∀ q, (c1.f.parts.set i q)[i]? = (c2.f.parts.set i q)[i]? := by
      intro q
      rw [List.getElem?_set, List.getElem?_set]
      simp only [if_true]
      have h0 : c1.f.parts.length ≤ i ↔ c2.f.parts.length ≤ i := by rw [← List.getElem?_eq_none_iff, ← List.getElem?_eq_none_iff, hs]
      have : (i < c1.f.parts.length) ↔ (i < c2.f.parts.length) := by omega
      simp only [this]
    unfold FastFine.assoc at h ⊢
    rw [← hs]
    split at h
    · cases h
    · split at h
      · cases h
      · rename_i das hd
        split at h
        · cases h
        · rename_i h0
          split at h
          · rename_i h1
            cases h
            simp only [hd]
            rw [if_neg h0, if_pos h1]
            refine ⟨_, rfl, by simp, hn, fun a ha hw => ?_⟩
            simp only [List.mem_cons, List.not_mem_nil, or_false] at ha
            rcases ha with rfl | rfl | rfl
            · cases hw
            · exact hsl _
            · cases hw
          · rename_i h1
            cases h
            simp only [hd]
            rw [if_neg h0, if_neg h1]
            refine ⟨_, rfl, by simp, hn, fun a ha hw => ?_⟩
            simp only [List.mem_cons, List.not_mem_nil, or_false] at ha
            rcases ha with rfl | rfl | rfl
            · cases hw
            · exact hs
            · cases hw
  · rename_i x lms das w hph
    rw [hph] at hr ⊢
    have h1 : c1.f.parts.length = c2.f.parts.length := hr ⟨.set, false, true⟩ (by simp) rfl
    have h2 : c1.f.parts[i]? = c2.f.parts[i]? := hr ⟨.part i, false, true⟩ (by simp) rfl
    have h3 : c1.f.resampled = c2.f.resampled := hr ⟨.flag, false, true⟩ (by simp) rfl
    have h4 : c1.f.resampled = true → c1.f.cands[i]? = c2.f.cands[i]? := fun hb => hr ⟨.cand i, false, true⟩ (by simp [hb]) rfl
    unfold FastFine.dup at h ⊢
    unfold PF.copyParticle at h ⊢
    rw [← h2]
    cases hpi : c1.f.parts[i]? with
    | none => rw [hpi] at h; cases h
    | some p =>
      obtain ⟨l1, -⟩ := List.getElem?_eq_some_iff.1 hpi
      rw [hpi] at h
      simp only [List.length_append, List.length_set, List.length_map, List.length_range] at h ⊢
      rw [← h1, ← h3, ← hn]
      split at h
      · cases h
      · rename_i hb
        cases h
        rw [if_neg hb]
        refine ⟨_, rfl, by simp, by simp only [FastThreads.copyCands_length]; exact hn, fun a ha hw => ?_⟩
        simp only [List.mem_append, List.mem_cons, List.not_mem_nil, or_false, List.mem_map, List.mem_range] at ha
        rcases ha with ((rfl | rfl | rfl | rfl | rfl) | ⟨g, hg, rfl⟩) | ha
        · cases hw
        · simp [Loc.same, h1]
        · cases hw
        · simp only [Loc.same]
          rw [List.getElem?_append_left (by rw [List.length_set]; exact l1), List.getElem?_append_left (by rw [List.length_set, ← h1]; exact l1), List.getElem?_set_self l1, List.getElem?_set_self (by rw [← h1]; exact l1)]
        · cases hw
        · simp only [Loc.same]
          rw [List.getElem?_append_right (by simp), List.getElem?_append_right (by simp [h1])]
          simp only [List.length_set, h1]
        · cases hres : c1.f.resampled with
          | false => rw [hres] at ha; simp at ha
          | true =>
            rw [hres, if_pos rfl] at ha
            simp only [List.mem_cons, List.mem_map, List.mem_range] at ha
            rcases ha with rfl | ⟨g, hg, rfl⟩
            · cases hw
            · simp only [Loc.same]
              have hb' : i < c1.f.cands.length ∧ c1.f.parts.length + (das.length - 1) ≤ c1.f.cands.length := by
                by_contra hcon
                refine hb ⟨hres, ?_⟩
                omega
              have e : c1.f.parts.length + g = slot i (c1.f.parts.length + (das.length - 1)) (das.length - 1 - g) := by
                unfold slot
                rw [if_neg (by omega)]
                omega
              rw [e, copyCands_new (by omega) (by omega) (by omega) hb'.2, copyCands_new (by omega) (by omega) (by omega) (by rw [← hn]; exact hb'.2), h4 hres]
  · rename_i hph
    cases h
    rw [hph]
    exact ⟨c2, rfl, by rw [← hph]; exact hp, hn, fun a ha => by simp at ha⟩
  · rename_i x lms k da rest hph
    rw [hph] at hr ⊢
    have h1 : c1.f.parts[k]? = c2.f.parts[k]? := hr ⟨.part k, false, false⟩ (by simp) rfl
    have h2 : c1.f.cands[k]? = c2.f.cands[k]? := hr ⟨.cand k, false, false⟩ (by simp) rfl
    unfold FastFine.hyp at h ⊢
    simp only
    rw [← h1, ← h2]
    split at h
    · rename_i q cs hq hcs
      split at h
      · cases h
      · rename_i o ho
        cases h
        simp only [ho]
        refine ⟨_, rfl, by simp, by simpa using hn, fun a ha hw => ?_⟩
        obtain ⟨l1, -⟩ := List.getElem?_eq_some_iff.1 hq
        obtain ⟨l2, -⟩ := List.getElem?_eq_some_iff.1 (h1 ▸ hq)
        obtain ⟨l3, -⟩ := List.getElem?_eq_some_iff.1 hcs
        obtain ⟨l4, -⟩ := List.getElem?_eq_some_iff.1 (h2 ▸ hcs)
        simp only [List.mem_cons, List.not_mem_nil, or_false] at ha
        rcases ha with rfl | rfl | rfl | rfl | rfl | rfl | rfl | rfl | rfl | rfl
        · cases hw
        · simp only [Loc.same]; rw [List.getElem?_set_self l1, List.getElem?_set_self l2]
        · cases hw
        · cases hw
        · simp only [Loc.same]; rw [List.getElem?_set_self l3, List.getElem?_set_self l4]
        · cases hw
        · trivial
        · cases hw
        · cases hw
        · cases hw
    · cases h

/-- A schedule that gets every iteration of the loop done. -/
structure WholeF (cfg : RCfg) (s : Scan X Lm) (σ : List Nat) (f : Filt X Lm) : Prop where
  lt : ∀ j ∈ σ, j < f.parts.length
  done : ∀ c, FastFine.run cfg.cfg s σ (FastFine.fresh s.nZ (begun cfg s f)) = .ok c → ∀ i < f.parts.length, ∃ x lms, c.ph i = .busy x lms []

/-- When all is done, the filters are the same. -/
theorem rel_done {cfg : Cfg} {s : Scan X Lm} {N0 : Nat} {c : Fine X Lm s.nZ} {d : Conc X Lm s.nZ} (h : Rel cfg s N0 c d) (hd : ∀ i < N0, ∃ x lms, c.ph i = .busy x lms []) : c.f = d.f ∧ ∀ i < N0, ∃ jb, d.job i = some jb ∧ jb.rest = [] := by
  refine ⟨?_, fun i hi => ?_⟩
  · have hp : c.f.parts = d.f.parts := by
      refine List.ext_getElem? fun k => ?_
      apply h.part_i
      by_cases hk : k < N0
      · obtain ⟨x, lms, e⟩ := hd k hk; rw [e]; rfl
      · rw [h.idle k (by omega)]; rfl
    rw [h.other, hp]
  · obtain ⟨x, lms, e⟩ := hd i hi
    rcases h.corr i with ⟨hc, -⟩ | ⟨hc, -⟩ | ⟨p, das, -, -, -, -, hc⟩ | ⟨jb, hj, hc⟩
    · rw [e] at hc; cases hc
    · rw [e] at hc; cases hc
    · rw [e] at hc; cases hc
    · refine ⟨jb, hj, ?_⟩
      rw [e] at hc
      obtain ⟨n, x', lms', rest, hh⟩ := jb
      simp only [Ph.busy.injEq] at hc
      obtain ⟨-, rfl, hc⟩ := hc
      have := congrArg List.length (eq_of_heq hc)
      simp only [pl, List.length_nil, List.length_map, List.length_zipIdx] at this
      exact List.length_eq_zero_iff.1 this.symm

/-- **C248**, results: the update run in fine steps by any threads gives exactly what it gives when the particles are taken one after the other in some order (so that C204 and what follows from it hold for it too). -/
theorem C248_serial (cfg : RCfg) (s : Scan X Lm) (σ : List Nat) (f f' : Filt X Lm) (hw : WholeF cfg s σ f) (h : updateF cfg s σ f = .ok f') :
    ∃ ord, ord.Perm (List.range f.parts.length) ∧ update cfg (ordered s f.parts.length ord) f = .ok f' := by
  by_cases hZ : s.nZ = 0
  · unfold updateF at h
    simp only at h
    rw [if_pos hZ] at h
    refine ⟨List.range f.parts.length, List.Perm.refl _, ?_⟩
    unfold update
    simp only
    rw [if_pos (show (ordered s f.parts.length (List.range f.parts.length)).nZ = 0 from hZ)]
    exact h
  · unfold updateF at h
    simp only at h
    rw [if_neg hZ] at h
    split at h
    · cases h
    · rename_i c hc
      have hc' : FastFine.run cfg.cfg s σ (FastFine.fresh s.nZ (begun cfg s f)) = .ok c := hc
      obtain ⟨τ, d, hτ, hd, rel⟩ := (run_rel (N0 := f.parts.length) σ _ _ hw.lt (fresh_rel cfg.cfg s (begun cfg s f))).1 c hc'
      obtain ⟨e1, e2⟩ := rel_done rel (hw.done c hc')
      refine FastThreadsProps.C204_serial cfg s τ f f' ⟨fun j hj => hw.lt j (hτ j hj), fun d' hd' => ?_⟩ ?_
      · rw [hd] at hd'
        cases hd'
        exact e2
      · unfold FastThreads.updateC
        simp only
        rw [if_neg hZ]
        change (match FastThreads.run cfg.cfg s τ (FastThreads.fresh s.nZ (begun cfg s f)) with | Except.error e => Except.error e | Except.ok c => resampleMove cfg s c.f) = _
        rw [hd]
        simp only
        rw [← e1]
        exact h

/-- **C248**, failures: a failure of a fine run is one of a run in the steps of `Verif.Model.FastThreads`; in particular no step leaves an array in a filter as it comes from calls (C204). -/
theorem C248_failures (cfg : RCfg) (n : Nat) (s : Scan X Lm) (σ : List Nat) (f : Filt X Lm) (hi : Inv n cfg.nMax f) (hlt : ∀ j ∈ σ, j < f.parts.length) (e : RErr)
    (h : FastFine.run cfg.cfg s σ (FastFine.fresh s.nZ (begun cfg s f)) = .error e) : ∃ e', e = .upd e' := by
  obtain ⟨τ, hτ, r⟩ := (run_rel (N0 := f.parts.length) σ _ _ hlt (fresh_rel cfg.cfg s (begun cfg s f))).2 e h
  exact (FastThreadsProps.C204_defined_partial cfg n s τ f hi (fun j hj => hlt j (hτ j hj)) e).1 r

theorem run_nil (cfg : Cfg) (s : Scan X Lm) (c : Fine X Lm s.nZ) : FastFine.run cfg s [] c = .ok c := rfl

theorem take_of {cfg : Cfg} {s : Scan X Lm} {c : Fine X Lm s.nZ} {i : Nat} (hc : c.ph i = .idle) (hi : i < c.f.parts.length) : FastFine.tick cfg s c i = .ok ⟨c.f, Function.update c.ph i .held⟩ := by
  unfold FastFine.tick
  rw [hc]
  simp only
  unfold FastFine.take
  rw [if_pos hi]

theorem assoc_of {cfg : Cfg} {s : Scan X Lm} {c : Fine X Lm s.nZ} {i : Nat} {p : PF.Part (PState X Lm) ℝ} {das} (hc : c.ph i = .held) (hp : c.f.parts[i]? = some p)
    (hy : hypotheses cfg s.nZ s.murty (table (s.env p.st.x) cfg (inRange (s.env p.st.x) p.st.map)) = .ok das) (h1 : 1 < das.length) : FastFine.tick cfg s c i =
      .ok ⟨{ c.f with parts := c.f.parts.set i { p with w := p.w / das.length } }, Function.update c.ph i (.ready p.st.x (inRange (s.env p.st.x) p.st.map) das (p.w / das.length))⟩ := by
  unfold FastFine.tick
  rw [hc]
  simp only
  unfold FastFine.assoc
  rw [hp]
  simp only
  rw [hy]
  simp only
  rw [if_neg (by omega), if_pos h1]

/-- **C248**, the critical section is needed: if two particles have several hypotheses, their iterations can both come to the point where they enlarge `particleSet_` - both in the critical section. -/
theorem C248_critical (cfg : Cfg) (s : Scan X Lm) (f : Filt X Lm) (i j : Nat) (hij : i ≠ j) (p q : PF.Part (PState X Lm) ℝ) (hp : f.parts[i]? = some p) (hq : f.parts[j]? = some q) (das das')
    (hy : hypotheses cfg s.nZ s.murty (table (s.env p.st.x) cfg (inRange (s.env p.st.x) p.st.map)) = .ok das) (h1 : 1 < das.length)
    (hy' : hypotheses cfg s.nZ s.murty (table (s.env q.st.x) cfg (inRange (s.env q.st.x) q.st.map)) = .ok das') (h1' : 1 < das'.length) : ∃ (σ : List Nat) (c : Fine X Lm s.nZ), (∀ k ∈ σ, k < f.parts.length) ∧
    FastFine.run cfg s σ (FastFine.fresh s.nZ f) = .ok c ∧ ∀ t t', ∃ a ∈ accesses t c i, ∃ b ∈ accesses t' c j, a.loc = .set ∧ b.loc = .set ∧ a.write = true ∧ b.write = true ∧ a.crit = true ∧ b.crit = true := by
  obtain ⟨l1, -⟩ := List.getElem?_eq_some_iff.1 hp
  obtain ⟨l2, -⟩ := List.getElem?_eq_some_iff.1 hq
  have hrun := run_cons.2 ⟨_, take_of (cfg := cfg) (c := FastFine.fresh s.nZ f) rfl l1, run_cons.2 ⟨_, take_of (cfg := cfg) (i := j) (by simp only; rw [Function.update_of_ne (Ne.symm hij)]; rfl) l2,
    run_cons.2 ⟨_, assoc_of (i := i) (p := p) (by simp only; rw [Function.update_of_ne hij, Function.update_self]) hp hy h1,
      run_cons.2 ⟨_, assoc_of (i := j) (p := q) (by simp only; rw [Function.update_of_ne (Ne.symm hij), Function.update_self]) (by simp only; rw [List.getElem?_set_ne hij]; exact hq) hy' h1', run_nil _ _ _⟩⟩⟩⟩
  refine ⟨[i, j, i, j], _, by simp [l1, l2], hrun, fun t t' => ⟨⟨.set, true, true⟩, ?_, ⟨.set, true, true⟩, ?_, rfl, rfl, rfl, rfl, rfl, rfl⟩⟩
  · unfold accesses
    simp only
    rw [Function.update_of_ne hij, Function.update_self]
    simp
  · unfold accesses
    simp only
    rw [Function.update_self]
    simp

/-- Its hypotheses can be met: two particles with two hypotheses each. -/
example : ∃ das das', hypotheses (twoCfg 3) 2 twoMurty (table twoEnv (twoCfg 3) (inRange twoEnv [((), 0), ((), 0)])) = .ok das ∧ 1 < das.length ∧
    hypotheses (twoCfg 3) 2 twoMurty (table twoEnv (twoCfg 3) (inRange twoEnv [((), 0), ((), 0)])) = .ok das' ∧ 1 < das'.length ∧ (FastThreadsProps.staleFilt []).parts.map (fun p => p.st.map) = [[((), 0), ((), 0)], [((), 0), ((), 0)]] := by
  obtain ⟨das, h1, h2, -⟩ := two_hyp 3 ⟨1, [((), 0), ((), 0)]⟩ rfl
  exact ⟨das, das, h1, lt_of_lt_of_eq one_lt_two h2.symm, h1, lt_of_lt_of_eq one_lt_two h2.symm, rfl⟩

/-- The hypotheses of `C248_no_race` and `C248_failures` can be met: two particles, and a filter as it comes from calls. -/
example : (FastThreadsProps.staleFilt []).parts.length = 2 ∧ Inv 2 FastThreadsProps.staleCfg.nMax (FastThreadsProps.staleFilt []) := ⟨rfl, FastThreadsProps.stale_inv []⟩

end FastFineProps
end RFS
