import Verif.Model.FastFine
import Verif.Lemmas.FastThreads

set_option linter.unusedSectionVars false

/-! Lemmas on the fine steps of `FastSLAM::update`: they follow the steps of `Verif.Model.FastThreads`. -/

namespace RFS
namespace FastFine
open FastSLAM FastRuns FastThreads
open Hungarian (Mat)

variable {X Lm : Type}

/-- What the particle of an iteration has become by the time its copies are made. -/
noncomputable def shareOf {nZ : Nat} (ph : Ph X Lm nZ) (p : PF.Part (PState X Lm) ℝ) : PF.Part (PState X Lm) ℝ :=
  match ph with
  | .ready _ _ das _ => share p das.length
  | _ => p

/-- The places of a job. -/
def pl {nZ : Nat} (i : Nat) (jb : Job X Lm nZ) : List (Nat × (Fin (max jb.lms.length nZ) → Option (Fin nZ))) := (jb.rest.zipIdx jb.h).map fun o => (slot i jb.n o.2, o.1)

/-- Iteration `i` is as far in `c` as in `d`. -/
def Corr (cfg : Cfg) (s : Scan X Lm) (c : Fine X Lm s.nZ) (d : Conc X Lm s.nZ) (i : Nat) : Prop :=
  (c.ph i = .idle ∧ d.job i = none) ∨ (c.ph i = .held ∧ d.job i = none) ∨
  (∃ p das, d.job i = none ∧ d.f.parts[i]? = some p ∧ hypotheses cfg s.nZ s.murty (table (s.env p.st.x) cfg (inRange (s.env p.st.x) p.st.map)) = .ok das ∧ 1 < das.length ∧
    c.ph i = .ready p.st.x (inRange (s.env p.st.x) p.st.map) das (p.w / das.length)) ∨
  (∃ jb, d.job i = some jb ∧ c.ph i = .busy jb.x jb.lms (pl i jb))

structure Rel (cfg : Cfg) (s : Scan X Lm) (N0 : Nat) (c : Fine X Lm s.nZ) (d : Conc X Lm s.nZ) : Prop where
  safe : Safe N0 d
  idle : ∀ i, N0 ≤ i → c.ph i = .idle
  part : ∀ k, c.f.parts[k]? = (d.f.parts[k]?).map (shareOf (c.ph k))
  other : c.f = { d.f with parts := c.f.parts }
  corr : ∀ i, Corr cfg s c d i

theorem Rel.len {cfg : Cfg} {s : Scan X Lm} {N0 : Nat} {c : Fine X Lm s.nZ} {d : Conc X Lm s.nZ} (h : Rel cfg s N0 c d) : c.f.parts.length = d.f.parts.length := by
  apply le_antisymm
  · by_contra hl
    push Not at hl
    have := h.part d.f.parts.length
    rw [List.getElem?_eq_none (le_refl d.f.parts.length), List.getElem?_eq_getElem hl] at this
    cases this
  · by_contra hl
    push Not at hl
    have := h.part c.f.parts.length
    rw [List.getElem?_eq_none (le_refl c.f.parts.length), List.getElem?_eq_getElem hl] at this
    cases this

theorem Rel.cands {cfg : Cfg} {s : Scan X Lm} {N0 : Nat} {c : Fine X Lm s.nZ} {d : Conc X Lm s.nZ} (h : Rel cfg s N0 c d) : c.f.cands = d.f.cands := by rw [h.other]

theorem Rel.flag {cfg : Cfg} {s : Scan X Lm} {N0 : Nat} {c : Fine X Lm s.nZ} {d : Conc X Lm s.nZ} (h : Rel cfg s N0 c d) : c.f.resampled = d.f.resampled := by rw [h.other]

theorem fresh_rel (cfg : Cfg) (s : Scan X Lm) (f : Filt X Lm) : Rel cfg s f.parts.length (fresh s.nZ f) (FastThreads.fresh s.nZ f) :=
  ⟨fresh_safe s.nZ f, fun _ _ => rfl, fun k => by simp only [fresh, FastThreads.fresh, shareOf]; cases f.parts[k]? <;> rfl, rfl, fun _ => Or.inl ⟨rfl, rfl⟩⟩

/-- The correspondence of an iteration that nothing happens to. -/
theorem corr_keep {cfg : Cfg} {s : Scan X Lm} {c c' : Fine X Lm s.nZ} {d d' : Conc X Lm s.nZ} {i : Nat} (hc : c'.ph i = c.ph i) (hd : d'.job i = d.job i) (hp : c.ph i ≠ .idle → d'.f.parts[i]? = d.f.parts[i]? ∨ d.f.parts[i]? = none) (h : Corr cfg s c d i) : Corr cfg s c' d' i := by
  unfold Corr at h ⊢
  rw [hc, hd]
  rcases h with h | h | ⟨p, das, h1, h2, h3⟩ | h
  · exact Or.inl h
  · exact Or.inr (Or.inl h)
  · refine Or.inr (Or.inr (Or.inl ⟨p, das, h1, ?_, h3⟩))
    rcases hp (by rw [h3.2.2]; simp) with e | e
    · rw [e, h2]
    · rw [e] at h2; cases h2
  · exact Or.inr (Or.inr (Or.inr h))

theorem share_one (p : PF.Part (PState X Lm) ℝ) : share p 1 = p := by unfold share; rw [if_neg (by omega)]

theorem places_pl {nZ : Nat} (i n : Nat) (x : X) (lms : List (Nat × Lm × ℝ)) (das : List (Fin (max lms.length nZ) → Option (Fin nZ))) : places i n das = pl i (⟨n, x, lms, das, 0⟩ : Job X Lm nZ) := rfl

/-- The result of the copying. -/
theorem dup_parts {P : List (PF.Part (PState X Lm) ℝ)} {i nH : Nat} {p : PF.Part (PState X Lm) ℝ} (hn : 1 < nH) (h : P[i]? = some (share p nH)) :
    PF.copyParticle P i (nH - 1) (p.w / nH) = some (P.set i (share p nH) ++ copies p nH P.length) := by
  unfold PF.copyParticle
  rw [h]
  have e : (if p.w / (nH : ℝ) < 0 then (share p nH).w else p.w / nH) = p.w / nH := by
    unfold share
    rw [if_pos hn]
    simp
  simp only [e]
  have e2 : ({ share p nH with w := p.w / nH } : PF.Part (PState X Lm) ℝ) = share p nH := by
    unfold share
    rw [if_pos hn]
  rw [e2]
  simp only [copies, share, if_pos hn]

section
variable {cfg : Cfg} {s : Scan X Lm} {N0 : Nat} {c c' : Fine X Lm s.nZ} {d : Conc X Lm s.nZ} {i : Nat}

theorem tick_none (hj : d.job i = none) : FastThreads.tick cfg s d i = start cfg s d i := by unfold FastThreads.tick; rw [hj]

theorem run_one (cfg : Cfg) (s : Scan X Lm) (d : Conc X Lm s.nZ) (i : Nat) : FastThreads.run cfg s [i] d = FastThreads.tick cfg s d i := by
  unfold FastThreads.run
  rw [List.foldlM_cons]
  cases FastThreads.tick cfg s d i <;> rfl

/-- The correspondence after a step of iteration `i` only. -/
theorem Rel.part_i (h : Rel cfg s N0 c d) (he : shareOf (c.ph i) = id) : c.f.parts[i]? = d.f.parts[i]? := by
  rw [h.part i, he]
  cases d.f.parts[i]? <;> rfl

/-- The copying of a particle keeps the correspondence. -/
theorem start_rel (h : Rel cfg s N0 c d) (hi : i < N0) {d' : Conc X Lm s.nZ} (hs : FastThreads.tick cfg s d i = .ok d') {p : PF.Part (PState X Lm) ℝ} {das} (hp : d.f.parts[i]? = some p) (hc : c'.f = d'.f ∨ c'.f = { d'.f with parts := c'.f.parts })
    (hd' : d' = ⟨{ d.f with parts := d.f.parts.set i (share p das) ++ copies p das d.f.parts.length, cands := copyCands i (d.f.parts.length + (das - 1)) das d.f.resampled d.f.cands }, d'.job⟩)
    (hph : ∀ j, j ≠ i → c'.ph j = c.ph j) (hjob : ∀ j, j ≠ i → d'.job j = d.job j) (hP : c'.f.parts = c.f.parts.set i (share p das) ++ copies p das c.f.parts.length) (hb : ∃ jb, d'.job i = some jb ∧ c'.ph i = .busy jb.x jb.lms (pl i jb)) : Rel cfg s N0 c' d' := by
  have hl := h.len
  have hl0 := h.safe.len
  have hdp : d'.f.parts = d.f.parts.set i (share p das) ++ copies p das d.f.parts.length := by rw [hd']
  refine ⟨tick_safe hi h.safe hs, fun j hj => ?_, fun k => ?_, ?_, fun j => ?_⟩
  · rw [hph j (by omega)]; exact h.idle j hj
  · rw [hP, hdp]
    obtain ⟨jb, -, hbz⟩ := hb
    by_cases hk : k < d.f.parts.length
    · rw [List.getElem?_append_left (by rw [List.length_set, hl]; exact hk), List.getElem?_append_left (by rw [List.length_set]; exact hk)]
      by_cases hki : k = i
      · subst hki
        rw [List.getElem?_set_self (by omega), List.getElem?_set_self hk, hbz]
        rfl
      · rw [List.getElem?_set_ne (Ne.symm hki), List.getElem?_set_ne (Ne.symm hki), hph k hki]
        exact h.part k
    · rw [List.getElem?_append_right (by rw [List.length_set, hl]; omega), List.getElem?_append_right (by rw [List.length_set]; omega), List.length_set, List.length_set, hl, hph k (by omega), h.idle k (by omega)]
      cases (copies p das d.f.parts.length)[k - d.f.parts.length]? <;> rfl
  · rcases hc with e | e
    · rw [e]
    · exact e
  · by_cases hji : j = i
    · subst hji
      exact Or.inr (Or.inr (Or.inr hb))
    · refine corr_keep (hph j hji) (hjob j hji) (fun _ => ?_) (h.corr j)
      rw [hdp]
      by_cases hk : j < d.f.parts.length
      · left
        rw [List.getElem?_append_left (by rw [List.length_set]; exact hk), List.getElem?_set_ne (Ne.symm hji)]
      · right
        exact List.getElem?_eq_none (by omega)

theorem hyp_err {x : X} {lms} {k : Nat} {da} {rest} {e : RErr} : hyp cfg s c i x lms k da rest = .error e ↔
    (match c.f.parts[k]?, c.f.cands[k]? with
      | some q, some cs => match hypUpdate (s.env x) cfg s.prune lms da ⟨q.w, q.st.map⟩ cs with | .error e' => e = .upd e' | .ok _ => False
      | _, _ => e = .index) := by
  unfold hyp
  cases c.f.parts[k]? with
  | none => simp [eq_comm]
  | some q =>
    cases c.f.cands[k]? with
    | none => simp [eq_comm]
    | some cs =>
      simp only
      cases hypUpdate (s.env x) cfg s.prune lms da ⟨q.w, q.st.map⟩ cs with
      | error e' => simp [eq_comm]
      | ok o => simp

theorem work_err {n : Nat} {x : X} {lms} {h : Nat} {da} {rest} {e : RErr} : work cfg s d i ⟨n, x, lms, da :: rest, h⟩ = .error e ↔
    (match d.f.parts[slot i n h]?, d.f.cands[slot i n h]? with
      | some q, some cs => match hypUpdate (s.env x) cfg s.prune lms da ⟨q.w, q.st.map⟩ cs with | .error e' => e = .upd e' | .ok _ => False
      | _, _ => e = .index) := by
  unfold work
  simp only
  cases d.f.parts[slot i n h]? with
  | none => simp [eq_comm]
  | some q =>
    cases d.f.cands[slot i n h]? with
    | none => simp [eq_comm]
    | some cs =>
      simp only
      cases hypUpdate (s.env x) cfg s.prune lms da ⟨q.w, q.st.map⟩ cs with
      | error e' => simp [eq_comm]
      | ok o => simp

/-- The place of the next hypothesis holds the same particle in both. -/
theorem Rel.slot_part (h : Rel cfg s N0 c d) {jb : Job X Lm s.nZ} (hj : d.job i = some jb) (hb : c.ph i = .busy jb.x jb.lms (pl i jb)) (hr : jb.rest ≠ []) : c.f.parts[slot i jb.n jb.h]? = d.f.parts[slot i jb.n jb.h]? := by
  have hpos : 0 < jb.rest.length := List.length_pos_iff.2 hr
  have ho := own_slot (h.safe.own i jb hj) jb.h (by omega)
  apply h.part_i
  rcases ho.2 with ⟨e, -⟩ | ⟨e, -⟩
  · rw [e, hb]; rfl
  · rw [h.idle _ e]; rfl

/-- Every fine step corresponds to a step of the iteration, or to none. -/
theorem tick_rel (h : Rel cfg s N0 c d) (hi : i < N0) :
    (∀ c', tick cfg s c i = .ok c' → ∃ τ d', (∀ j ∈ τ, j = i) ∧ FastThreads.run cfg s τ d = .ok d' ∧ Rel cfg s N0 c' d') ∧ (∀ e, tick cfg s c i = .error e → FastThreads.tick cfg s d i = .error e) := by
  have hl := h.len
  have hl0 := h.safe.len
  have hil : i < d.f.parts.length := by omega
  rcases h.corr i with ⟨hc, hd⟩ | ⟨hc, hd⟩ | ⟨p, das, hd, hp, hy, hn, hc⟩ | ⟨jb, hd, hc⟩
  · have e : tick cfg s c i = .ok ⟨c.f, Function.update c.ph i .held⟩ := by
      unfold tick take
      rw [hc]
      simp only
      rw [if_pos (by omega)]
    refine ⟨fun c' hk => ⟨[], d, by simp, rfl, ?_⟩, fun e' hk => by rw [e] at hk; cases hk⟩
    rw [e] at hk
    cases hk
    refine ⟨h.safe, fun j hj => ?_, fun k => ?_, h.other, fun j => ?_⟩
    · simp only; rw [Function.update_of_ne (by omega)]; exact h.idle j hj
    · simp only
      rw [h.part k]
      by_cases hki : k = i
      · subst hki; rw [Function.update_self, hc]; rfl
      · rw [Function.update_of_ne hki]
    · by_cases hji : j = i
      · subst hji; exact Or.inr (Or.inl ⟨by simp, hd⟩)
      · exact corr_keep (Function.update_of_ne hji _ _) rfl (fun _ => Or.inl rfl) (h.corr j)
  · have hpi := h.part_i (i := i) (by rw [hc]; rfl)
    obtain ⟨p, hp⟩ : ∃ p, d.f.parts[i]? = some p := ⟨_, List.getElem?_eq_getElem hil⟩
    rw [hp] at hpi
    have et : tick cfg s c i = assoc cfg s c i := by unfold tick; rw [hc]
    rw [et]
    unfold assoc
    rw [hpi]
    simp only
    rw [tick_none hd]
    split
    · rename_i e he
      refine ⟨fun _ h' => (by cases h'), fun e' h' => ?_⟩
      cases h'
      unfold start
      rw [hp]
      simp only
      rw [he]
    · rename_i das hy
      split
      · rename_i h0
        refine ⟨fun _ h' => (by cases h'), fun e' h' => ?_⟩
        cases h'
        unfold start
        rw [hp]
        simp only
        rw [hy]
        simp only
        rw [if_pos h0]
      · rename_i h0
        split
        · rename_i h1
          refine ⟨fun c' h' => ⟨[], d, by simp, rfl, ?_⟩, fun e' h' => by cases h'⟩
          cases h'
          refine ⟨h.safe, fun j hj => ?_, fun k => ?_, ?_, fun j => ?_⟩
          · simp only; rw [Function.update_of_ne (by omega)]; exact h.idle j hj
          · simp only
            by_cases hki : k = i
            · subst hki
              rw [Function.update_self, List.getElem?_set_self (by omega), hp]
              simp only [shareOf, Option.map_some, share, if_pos h1]
            · rw [Function.update_of_ne hki, List.getElem?_set_ne (Ne.symm hki)]
              exact h.part k
          · simp only
            rw [h.other]
          · by_cases hji : j = i
            · subst hji
              exact Or.inr (Or.inr (Or.inl ⟨p, das, hd, hp, hy, h1, by simp⟩))
            · exact corr_keep (Function.update_of_ne hji _ _) rfl (fun _ => Or.inl rfl) (h.corr j)
        · rename_i h1
          refine ⟨fun c' h' => ?_, fun e' h' => by cases h'⟩
          cases h'
          have hs1 := start_of (c := d) hp hy h0 (by omega)
          have hone : das.length = 1 := by omega
          obtain ⟨a, rfl⟩ := List.length_eq_one_iff.1 hone
          refine ⟨[i], _, by simp, by rw [run_one, tick_none hd]; exact hs1, ?_⟩
          refine start_rel (p := p) (das := 1) h hi (by rw [tick_none hd]; exact hs1) hp (Or.inr ?_) rfl (fun j hj => Function.update_of_ne hj _ _) (fun j hj => Function.update_of_ne hj _ _) ?_ ⟨_, Function.update_self _ _ _, ?_⟩
          · simp only [List.length_singleton]
            rw [h.other]
            simp only [copyCands, Nat.sub_self, List.range'_zero, List.foldl_nil, ite_self]
          · simp only [copies, Nat.sub_self, List.range_zero, List.map_nil, List.append_nil, share_one]
            obtain ⟨hl1, hl2⟩ := List.getElem?_eq_some_iff.1 hpi
            rw [← hl2, List.set_getElem_self]
          · simp only [Function.update_self]
            rfl
  · have hpi : c.f.parts[i]? = some (share p das.length) := by rw [h.part i, hp, hc]; rfl
    have et : tick cfg s c i = dup c i p.st.x (inRange (s.env p.st.x) p.st.map) das (p.w / das.length) := by unfold tick; rw [hc]
    rw [et]
    unfold dup
    rw [dup_parts hn hpi]
    have hPl : (c.f.parts.set i (share p das.length) ++ copies p das.length c.f.parts.length).length = d.f.parts.length + (das.length - 1) := by rw [List.length_append, List.length_set, copies_length, hl]
    simp only [hPl]
    rw [tick_none hd]
    split
    · rename_i hb
      refine ⟨fun _ h' => (by cases h'), fun e' h' => ?_⟩
      cases h'
      unfold start
      rw [hp]
      simp only
      rw [hy]
      simp only
      rw [if_neg (by omega), if_pos ⟨by rw [← h.flag]; exact hb.1, hn, by rw [← h.cands]; exact hb.2⟩]
    · rename_i hb
      refine ⟨fun c' h' => ?_, fun e' h' => by cases h'⟩
      cases h'
      have hs1 := start_of (c := d) hp hy (by omega) (fun hx => hb ⟨by rw [h.flag]; exact hx.1, by rw [h.cands]; exact hx.2.2⟩)
      refine ⟨[i], _, by simp, by rw [run_one, tick_none hd]; exact hs1, ?_⟩
      refine start_rel (p := p) (das := das.length) h hi (by rw [tick_none hd]; exact hs1) hp (Or.inr ?_) rfl (fun j hj => Function.update_of_ne hj _ _) (fun j hj => Function.update_of_ne hj _ _) rfl ⟨_, Function.update_self _ _ _, ?_⟩
      · simp only
        rw [h.other]
      · simp only [Function.update_self]
        rfl
  · obtain ⟨n, x, lms, rest, hh⟩ := jb
    cases rest with
    | nil =>
      have et : tick cfg s c i = .ok c := by unfold tick; rw [hc]; rfl
      rw [et]
      refine ⟨fun c' h' => ⟨[], d, by simp, rfl, ?_⟩, fun e' h' => by cases h'⟩
      cases h'
      exact h
    | cons da rest =>
      have hsp := h.slot_part hd hc (by simp)
      simp only at hsp
      have et : tick cfg s c i = hyp cfg s c i x lms (slot i n hh) da (pl i (⟨n, x, lms, rest, hh + 1⟩ : Job X Lm s.nZ)) := by
        unfold tick
        rw [hc]
        rfl
      have ew : FastThreads.tick cfg s d i = work cfg s d i ⟨n, x, lms, da :: rest, hh⟩ := by unfold FastThreads.tick; rw [hd]
      rw [et]
      refine ⟨fun c' h' => ?_, fun e' h' => ?_⟩
      · unfold hyp at h'
        split at h'
        · rename_i q cs hq hcs
          split at h'
          · cases h'
          · rename_i o ho
            cases h'
            have hw := work_of (c := d) (i := i) (n := n) (h := hh) (rest := rest) (by rw [← hsp]; exact hq) (by rw [← h.cands]; exact hcs) ho
            have hs' : FastThreads.tick cfg s d i = _ := ew.trans hw
            have hown := h.safe.own i _ hd
            have hsl := own_slot hown hh (by simp only [List.length_cons]; omega)
            simp only at hsl hown
            refine ⟨[i], _, by simp, by rw [run_one]; exact hs', tick_safe hi h.safe hs', fun j hj => ?_, fun k => ?_, ?_, fun j => ?_⟩
            · simp only; rw [Function.update_of_ne (by omega)]; exact h.idle j hj
            · simp only
              by_cases hk : k = slot i n hh
              · subst hk
                rw [List.getElem?_set_self (by omega), List.getElem?_set_self hsl.1]
                rcases hsl.2 with ⟨e, -⟩ | ⟨e, -⟩
                · rw [e, Function.update_self]; rfl
                · rw [Function.update_of_ne (by omega), h.idle _ e]; rfl
              · rw [List.getElem?_set_ne (Ne.symm hk), List.getElem?_set_ne (Ne.symm hk), h.part k]
                by_cases hki : k = i
                · subst hki; rw [Function.update_self, hc]; rfl
                · rw [Function.update_of_ne hki]
            · simp only
              rw [h.other]
            · by_cases hji : j = i
              · subst hji
                exact Or.inr (Or.inr (Or.inr ⟨_, Function.update_self _ _ _, Function.update_self _ _ _⟩))
              · refine corr_keep (Function.update_of_ne hji _ _) (Function.update_of_ne hji _ _) (fun hjn => ?_) (h.corr j)
                by_cases hk : j = slot i n hh
                · rcases hsl.2 with ⟨e, -⟩ | ⟨e, -⟩
                  · omega
                  · exact absurd (h.idle j (by omega)) hjn
                · left
                  simp only
                  rw [List.getElem?_set_ne (Ne.symm hk)]
        · cases h'
      · rw [ew]
        rw [hyp_err, hsp, h.cands] at h'
        rw [work_err]
        exact h'
end

end FastFine
end RFS
