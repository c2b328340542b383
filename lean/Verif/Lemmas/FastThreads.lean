import Verif.Model.FastThreads
import Verif.Lemmas.FastRuns

set_option linter.unusedSectionVars false

/-! Lemmas on the threads of `FastSLAM::update`: steps of different iterations commute. -/

namespace RFS
namespace FastThreads
open FastSLAM FastRuns
open Hungarian (Mat)

variable {X Lm : Type}

/-- The particle with its share of the weight. -/
noncomputable def share (p : PF.Part (PState X Lm) ℝ) (nH : Nat) : PF.Part (PState X Lm) ℝ := { p with w := if 1 < nH then p.w / nH else p.w }

/-- Its copies, in a set of `n` particles. -/
noncomputable def copies (p : PF.Part (PState X Lm) ℝ) (nH n : Nat) : List (PF.Part (PState X Lm) ℝ) := (List.range (nH - 1)).map fun t => { share p nH with id := n + t }

theorem split_eq (P : List (PF.Part (PState X Lm) ℝ)) (i nH : Nat) (p : PF.Part (PState X Lm) ℝ) (hp : P[i]? = some p) : split P i nH p = some (P.set i (share p nH) ++ copies p nH P.length) := by
  obtain ⟨hi, hpi⟩ := List.getElem?_eq_some_iff.1 hp
  unfold FastRuns.split
  by_cases h : 1 < nH
  · rw [if_pos h]
    unfold PF.copyParticle
    rw [List.getElem?_set_self hi]
    simp only [List.set_set, List.length_set, copies, share, if_pos h]
    have : (if p.w / (nH : ℝ) < 0 then p.w / (nH : ℝ) else p.w / nH) = p.w / nH := by split <;> rfl
    simp only [this]
  · rw [if_neg h]
    have h1 : nH - 1 = 0 := by omega
    have h2 : share p nH = p := by unfold share; rw [if_neg h]
    simp only [copies, h1, List.range_zero, List.map_nil, List.append_nil, h2]
    rw [← hpi, List.set_getElem_self]

theorem copies_length (p : PF.Part (PState X Lm) ℝ) (nH n : Nat) : (copies p nH n).length = nH - 1 := by simp [copies]

theorem foldl_set_length {α β : Type*} (g : α → Nat) (v : β) (l : List α) : ∀ (C : List β), (l.foldl (fun D a => D.set (g a) v) C).length = C.length := by
  induction l with
  | nil => intro C; rfl
  | cons a l ih => intro C; rw [List.foldl_cons, ih, List.length_set]

theorem foldl_set_comm {α β : Type*} (g : α → Nat) (v : β) (k : Nat) (x : β) (l : List α) (hk : ∀ a ∈ l, g a ≠ k) : ∀ (C : List β), l.foldl (fun D a => D.set (g a) v) (C.set k x) = (l.foldl (fun D a => D.set (g a) v) C).set k x := by
  induction l with
  | nil => intro C; rfl
  | cons a l ih =>
    intro C
    rw [List.foldl_cons, List.foldl_cons, List.set_comm _ _ (Ne.symm (hk a List.mem_cons_self)), ih (fun b hb => hk b (List.mem_cons_of_mem _ hb))]

theorem foldl_set_get {α β : Type*} (g : α → Nat) (v : β) (k : Nat) (l : List α) (hk : ∀ a ∈ l, g a ≠ k) (C : List β) : (l.foldl (fun D a => D.set (g a) v) C)[k]? = C[k]? :=
  foldl_set_other g (fun _ => v) l C k hk

theorem copyCands_length (i n nH : Nat) (b : Bool) (C : List (List (Cand Lm))) : (copyCands i n nH b C).length = C.length := by
  unfold copyCands
  split
  · exact foldl_set_length _ _ _ _
  · rfl

/-- Other places keep their candidates. -/
theorem copyCands_other (i n nH : Nat) (b : Bool) (C : List (List (Cand Lm))) (k : Nat) (hk : ∀ h, 0 < h → h < nH → slot i n h ≠ k) : (copyCands i n nH b C)[k]? = C[k]? := by
  unfold copyCands
  split
  · refine foldl_set_get _ _ _ _ (fun a ha => ?_) _
    rw [List.mem_range'_1] at ha
    exact hk a (by omega) (by omega)
  · rfl

theorem copyCands_set (i n nH : Nat) (b : Bool) (C : List (List (Cand Lm))) (k : Nat) (x : List (Cand Lm)) (hi : k ≠ i) (hk : ∀ h, 0 < h → h < nH → slot i n h ≠ k) :
    copyCands i n nH b (C.set k x) = (copyCands i n nH b C).set k x := by
  unfold copyCands
  split
  · rw [List.getElem?_set_ne hi]
    refine foldl_set_comm _ _ _ _ _ (fun a ha => ?_) _
    rw [List.mem_range'_1] at ha
    exact hk a (by omega) (by omega)
  · rfl

/-- What iteration `i` has begun: the particles `slot i n h`, `h < nH`, are its own. -/
structure Own (N0 : Nat) (len : Nat) (i : Nat) (n nH : Nat) : Prop where
  pos : 0 < nH
  lo : i < N0
  mid : N0 + (nH - 1) ≤ n
  hi : n ≤ len

/-- Between any two steps. -/
structure Safe (N0 : Nat) {nZ : Nat} (c : Conc X Lm nZ) : Prop where
  len : N0 ≤ c.f.parts.length
  own : ∀ i jb, c.job i = some jb → Own N0 c.f.parts.length i jb.n (jb.h + jb.rest.length)
  apart : ∀ i jb j jb', c.job i = some jb → c.job j = some jb' → i ≠ j → jb.n + (jb'.h + jb'.rest.length - 1) ≤ jb'.n ∨ jb'.n + (jb.h + jb.rest.length - 1) ≤ jb.n

theorem own_slot {N0 len i n nH : Nat} (o : Own N0 len i n nH) (h : Nat) (hh : h < nH) : slot i n h < len ∧ (slot i n h = i ∧ h = 0 ∨ N0 ≤ slot i n h ∧ n - (nH - 1) ≤ slot i n h ∧ slot i n h < n ∧ 0 < h) := by
  have := o.pos
  have := o.lo
  have := o.mid
  have := o.hi
  unfold slot
  split
  · omega
  · omega

/-- Places of two iterations differ. -/
theorem safe_ne {N0 nZ : Nat} {c : Conc X Lm nZ} (hs : Safe N0 c) {i j : Nat} {jb jb' : Job X Lm nZ} (hi : c.job i = some jb) (hj : c.job j = some jb') (hij : i ≠ j) (h h' : Nat) (hh : h < jb.h + jb.rest.length)
    (hh' : h' < jb'.h + jb'.rest.length) : slot i jb.n h ≠ slot j jb'.n h' := by
  have o1 := hs.own i jb hi
  have o2 := hs.own j jb' hj
  have a := hs.apart i jb j jb' hi hj hij
  have s1 := own_slot o1 h hh
  have s2 := own_slot o2 h' hh'
  have := o1.mid
  have := o2.mid
  have := o1.lo
  have := o2.lo
  omega

theorem fresh_safe (nZ : Nat) (f : Filt X Lm) : Safe f.parts.length (fresh nZ f : Conc X Lm nZ) := ⟨le_rfl, fun _ _ h => by simp [fresh] at h, fun _ _ _ _ h => by simp [fresh] at h⟩

/-- What a completed first step says. -/
theorem start_ok {cfg : Cfg} {s : Scan X Lm} {c d : Conc X Lm s.nZ} {i : Nat} (h : start cfg s c i = .ok d) : ∃ p das, c.f.parts[i]? = some p ∧
    hypotheses cfg s.nZ s.murty (table (s.env p.st.x) cfg (inRange (s.env p.st.x) p.st.map)) = .ok das ∧ das.length ≠ 0 ∧
    ¬ (c.f.resampled = true ∧ 1 < das.length ∧ (c.f.cands.length ≤ i ∨ c.f.cands.length < c.f.parts.length + (das.length - 1))) ∧
    d = ⟨{ c.f with parts := c.f.parts.set i (share p das.length) ++ copies p das.length c.f.parts.length, cands := copyCands i (c.f.parts.length + (das.length - 1)) das.length c.f.resampled c.f.cands },
      Function.update c.job i (some ⟨c.f.parts.length + (das.length - 1), p.st.x, inRange (s.env p.st.x) p.st.map, das, 0⟩)⟩ := by
  unfold start at h
  split at h
  · cases h
  · rename_i p hp
    split at h
    · cases h
    · rename_i das hd
      split at h
      · cases h
      · rename_i h0
        split at h
        · cases h
        · rename_i h1
          rw [split_eq _ _ _ _ hp] at h
          exact ⟨p, das, hp, hd, h0, h1, (Except.ok.inj h).symm⟩

theorem start_of {cfg : Cfg} {s : Scan X Lm} {c : Conc X Lm s.nZ} {i : Nat} {p das} (hp : c.f.parts[i]? = some p)
    (hd : hypotheses cfg s.nZ s.murty (table (s.env p.st.x) cfg (inRange (s.env p.st.x) p.st.map)) = .ok das) (h0 : das.length ≠ 0)
    (h1 : ¬ (c.f.resampled = true ∧ 1 < das.length ∧ (c.f.cands.length ≤ i ∨ c.f.cands.length < c.f.parts.length + (das.length - 1)))) :
    start cfg s c i = .ok ⟨{ c.f with parts := c.f.parts.set i (share p das.length) ++ copies p das.length c.f.parts.length, cands := copyCands i (c.f.parts.length + (das.length - 1)) das.length c.f.resampled c.f.cands },
      Function.update c.job i (some ⟨c.f.parts.length + (das.length - 1), p.st.x, inRange (s.env p.st.x) p.st.map, das, 0⟩)⟩ := by
  unfold start
  rw [hp]
  simp only
  rw [hd]
  simp only
  rw [if_neg h0, if_neg h1, split_eq _ _ _ _ hp]

/-- What a completed step on a hypothesis says. -/
theorem work_ok {cfg : Cfg} {s : Scan X Lm} {c d : Conc X Lm s.nZ} {i n : Nat} {x : X} {lms} {da} {rest} {h : Nat} (e : work cfg s c i ⟨n, x, lms, da :: rest, h⟩ = .ok d) : ∃ q cs o, c.f.parts[slot i n h]? = some q ∧
    c.f.cands[slot i n h]? = some cs ∧ hypUpdate (s.env x) cfg s.prune lms da ⟨q.w, q.st.map⟩ cs = .ok o ∧
    d = ⟨{ c.f with parts := c.f.parts.set (slot i n h) (put q o), cands := c.f.cands.set (slot i n h) o.2 }, Function.update c.job i (some ⟨n, x, lms, rest, h + 1⟩)⟩ := by
  unfold work at e
  simp only at e
  split at e
  · rename_i q cs hq hcs
    split at e
    · cases e
    · rename_i o ho
      exact ⟨q, cs, o, hq, hcs, ho, (Except.ok.inj e).symm⟩
  · cases e

theorem work_of {cfg : Cfg} {s : Scan X Lm} {c : Conc X Lm s.nZ} {i n : Nat} {x : X} {lms} {da} {rest} {h : Nat} {q cs o} (hq : c.f.parts[slot i n h]? = some q) (hcs : c.f.cands[slot i n h]? = some cs)
    (ho : hypUpdate (s.env x) cfg s.prune lms da ⟨q.w, q.st.map⟩ cs = .ok o) : work cfg s c i ⟨n, x, lms, da :: rest, h⟩ =
    .ok ⟨{ c.f with parts := c.f.parts.set (slot i n h) (put q o), cands := c.f.cands.set (slot i n h) o.2 }, Function.update c.job i (some ⟨n, x, lms, rest, h + 1⟩)⟩ := by
  unfold work
  simp only
  rw [hq, hcs]
  simp only
  rw [ho]
  rfl

/-- A step keeps the places apart. -/
theorem tick_safe {N0 : Nat} {cfg : Cfg} {s : Scan X Lm} {c d : Conc X Lm s.nZ} {i : Nat} (hi : i < N0) (hs : Safe N0 c) (h : tick cfg s c i = .ok d) : Safe N0 d := by
  unfold tick at h
  split at h
  · rename_i hj
    obtain ⟨p, das, hp, hd, h0, h1, rfl⟩ := start_ok h
    have hlen : (c.f.parts.set i (share p das.length) ++ copies p das.length c.f.parts.length).length = c.f.parts.length + (das.length - 1) := by
      rw [List.length_append, List.length_set, copies_length]
    have hl := hs.len
    refine ⟨by simp only [hlen]; omega, ?_, ?_⟩
    · intro k jb hk
      simp only [hlen]
      by_cases hki : k = i
      · subst hki
        simp only [Function.update_self, Option.some.injEq] at hk
        subst hk
        exact ⟨by simp only; omega, hi, by simp only; omega, by simp only; omega⟩
      · simp only [Function.update_of_ne hki] at hk
        have o := hs.own k jb hk
        exact ⟨o.pos, o.lo, o.mid, by have := o.hi; omega⟩
    · intro k jb k' jb' hk hk' hne
      by_cases hki : k = i
      · subst hki
        simp only [Function.update_self, Option.some.injEq, Function.update_of_ne (Ne.symm hne)] at hk hk'
        subst hk
        have o := hs.own k' jb' hk'
        have := o.hi
        simp only
        omega
      · by_cases hki' : k' = i
        · subst hki'
          simp only [Function.update_self, Option.some.injEq, Function.update_of_ne hne] at hk hk'
          subst hk'
          have o := hs.own k jb hk
          have := o.hi
          simp only
          omega
        · simp only [Function.update_of_ne hki, Function.update_of_ne hki'] at hk hk'
          exact hs.apart k jb k' jb' hk hk' hne
  · rename_i jb hj
    obtain ⟨n, x, lms, rest, h'⟩ := jb
    cases rest with
    | nil => cases h; exact hs
    | cons da rest =>
      obtain ⟨q, cs, o, hq, hcs, ho, rfl⟩ := work_ok h
      have e : ∀ k jb, Function.update c.job i (some ⟨n, x, lms, rest, h' + 1⟩) k = some jb → ∃ jb0, c.job k = some jb0 ∧ jb.n = jb0.n ∧ jb.h + jb.rest.length = jb0.h + jb0.rest.length := by
        intro k jb hk
        by_cases hki : k = i
        · subst hki
          simp only [Function.update_self, Option.some.injEq] at hk
          subst hk
          exact ⟨_, hj, rfl, by simp only [List.length_cons]; omega⟩
        · rw [Function.update_of_ne hki] at hk
          exact ⟨jb, hk, rfl, rfl⟩
      refine ⟨by simpa using hs.len, ?_, ?_⟩
      · intro k jb hk
        obtain ⟨jb0, e1, e2, e3⟩ := e k jb hk
        simp only [List.length_set]
        rw [e2, e3]
        exact hs.own k jb0 e1
      · intro k jb k' jb' hk hk' hne
        obtain ⟨jb0, e1, e2, e3⟩ := e k jb hk
        obtain ⟨jb0', e1', e2', e3'⟩ := e k' jb' hk'
        rw [e2, e3, e2', e3']
        exact hs.apart k jb0 k' jb0' e1 e1' hne

/-- A step of one iteration leaves the others where they are. -/
theorem tick_other {cfg : Cfg} {s : Scan X Lm} {c d : Conc X Lm s.nZ} {i j : Nat} (hij : i ≠ j) (h : tick cfg s c j = .ok d) : d.job i = c.job i := by
  unfold tick at h
  split at h
  · obtain ⟨p, das, hp, hd, h0, h1, rfl⟩ := start_ok h
    exact Function.update_of_ne hij _ _
  · rename_i jb hj
    obtain ⟨n, x, lms, rest, h'⟩ := jb
    cases rest with
    | nil => cases h; rfl
    | cons da rest =>
      obtain ⟨q, cs, o, hq, hcs, ho, rfl⟩ := work_ok h
      exact Function.update_of_ne hij _ _

/-- A step on a hypothesis can be done before the step of another iteration. -/
theorem swap {N0 : Nat} {cfg : Cfg} {s : Scan X Lm} {c c1 d : Conc X Lm s.nZ} {i j : Nat} (hij : i ≠ j) (hj : j < N0) (hs : Safe N0 c) (hi : c.job i ≠ none) (h1 : tick cfg s c j = .ok c1) (h2 : tick cfg s c1 i = .ok d) :
    ∃ c2, tick cfg s c i = .ok c2 ∧ tick cfg s c2 j = .ok d := by
  obtain ⟨jb, hjb⟩ := Option.ne_none_iff_exists'.1 hi
  have hjb1 : c1.job i = some jb := by rw [tick_other hij h1, hjb]
  have hti : tick cfg s c i = work cfg s c i jb := by unfold tick; rw [hjb]
  unfold tick at h2
  rw [hjb1] at h2
  simp only at h2
  obtain ⟨n, x, lms, rest, h'⟩ := jb
  cases rest with
  | nil =>
    cases h2
    exact ⟨c, by rw [hti]; rfl, h1⟩
  | cons da rest =>
    obtain ⟨q, cs, o, hq, hcs, ho, rfl⟩ := work_ok h2
    have hown := hs.own i _ hjb
    have hsl := own_slot hown h' (by simp only [List.length_cons]; omega)
    simp only at hsl hown
    rw [hti]
    have hlen := hs.len
    cases hjj : c.job j with
    | none =>
      have h1' : start cfg s c j = .ok c1 := by rw [← h1]; unfold tick; rw [hjj]
      obtain ⟨p, das, hp, hd, h0, hb, rfl⟩ := start_ok h1'
      have hkj : slot i n h' ≠ j := by
        intro e
        rcases hsl.2 with h | h <;> omega
      have hke : ∀ h, 0 < h → h < das.length → slot j (c.f.parts.length + (das.length - 1)) h ≠ slot i n h' := by
        intro h h3 h4
        unfold slot at hsl ⊢
        rw [if_neg (by omega : ¬ h = 0)]
        omega
      have hq' : c.f.parts[slot i n h']? = some q := by
        rw [← hq]
        simp only
        rw [List.getElem?_append_left (by rw [List.length_set]; exact hsl.1), List.getElem?_set_ne (Ne.symm hkj)]
      have hcs' : c.f.cands[slot i n h']? = some cs := by
        rw [← hcs]
        simp only
        rw [copyCands_other _ _ _ _ _ _ hke]
      refine ⟨_, work_of hq' hcs' ho, ?_⟩
      unfold tick
      simp only
      rw [Function.update_of_ne (Ne.symm hij), hjj]
      simp only
      rw [start_of (p := p) (das := das) (by simp only; rw [List.getElem?_set_ne hkj]; exact hp) hd h0 (by simpa using hb)]
      simp only [List.length_set]
      congr 2
      · congr 1
        · rw [List.set_comm _ _ hkj, List.set_append_left _ _ (by rw [List.length_set]; exact hsl.1)]
        · exact copyCands_set _ _ _ _ _ _ _ hkj hke
      · exact Function.update_comm hij _ _ _
    | some jb' =>
      obtain ⟨n', x', lms', rest', h''⟩ := jb'
      have h1' : work cfg s c j ⟨n', x', lms', rest', h''⟩ = .ok c1 := by rw [← h1]; unfold tick; rw [hjj]
      cases rest' with
      | nil =>
        cases h1'
        refine ⟨_, work_of hq hcs ho, ?_⟩
        unfold tick
        simp only
        rw [Function.update_of_ne (Ne.symm hij), hjj]
        rfl
      | cons da' rest' =>
        obtain ⟨q', cs', o', hq', hcs', ho', rfl⟩ := work_ok h1'
        have hne : slot i n h' ≠ slot j n' h'' := safe_ne hs hjb hjj hij h' h'' (by simp only [List.length_cons]; omega) (by simp only [List.length_cons]; omega)
        simp only at hq hcs
        rw [List.getElem?_set_ne (Ne.symm hne)] at hq hcs
        refine ⟨_, work_of hq hcs ho, ?_⟩
        unfold tick
        simp only
        rw [Function.update_of_ne (Ne.symm hij), hjj]
        simp only
        rw [work_of (q := q') (cs := cs') (o := o') (by simp only; rw [List.getElem?_set_ne hne]; exact hq') (by simp only; rw [List.getElem?_set_ne hne]; exact hcs') ho']
        simp only
        congr 2
        · congr 1
          · exact List.set_comm _ _ hne
          · exact List.set_comm _ _ hne
        · exact Function.update_comm hij _ _ _

theorem run_nil (cfg : Cfg) (s : Scan X Lm) (c : Conc X Lm s.nZ) : run cfg s [] c = .ok c := rfl

theorem run_cons {cfg : Cfg} {s : Scan X Lm} {c d : Conc X Lm s.nZ} {i : Nat} {σ : List Nat} : run cfg s (i :: σ) c = .ok d ↔ ∃ c1, tick cfg s c i = .ok c1 ∧ run cfg s σ c1 = .ok d := by
  unfold run
  rw [List.foldlM_cons]
  cases h : tick cfg s c i with
  | error e =>
    constructor
    · intro h'; cases h'
    · rintro ⟨c1, h1, -⟩; cases h1
  | ok c1 =>
    constructor
    · intro h'; exact ⟨c1, rfl, h'⟩
    · rintro ⟨c2, h1, h2⟩; cases h1; exact h2

theorem run_append {cfg : Cfg} {s : Scan X Lm} {d : Conc X Lm s.nZ} {σ τ : List Nat} : ∀ {c : Conc X Lm s.nZ}, run cfg s (σ ++ τ) c = .ok d ↔ ∃ c1, run cfg s σ c = .ok c1 ∧ run cfg s τ c1 = .ok d := by
  induction σ with
  | nil => intro c; simp [run_nil]
  | cons i σ ih =>
    intro c
    rw [List.cons_append, run_cons]
    constructor
    · rintro ⟨c1, h1, h2⟩
      obtain ⟨c2, h3, h4⟩ := ih.1 h2
      exact ⟨c2, run_cons.2 ⟨c1, h1, h3⟩, h4⟩
    · rintro ⟨c2, h1, h2⟩
      obtain ⟨c1, h3, h4⟩ := run_cons.1 h1
      exact ⟨c1, h3, ih.2 ⟨c2, h4, h2⟩⟩

theorem tick_begun {cfg : Cfg} {s : Scan X Lm} {c d : Conc X Lm s.nZ} {i : Nat} (h : tick cfg s c i = .ok d) : d.job i ≠ none := by
  unfold tick at h
  split at h
  · obtain ⟨p, das, hp, hd, h0, h1, rfl⟩ := start_ok h
    simp
  · rename_i jb hj
    obtain ⟨n, x, lms, rest, h'⟩ := jb
    cases rest with
    | nil => cases h; rw [hj]; simp
    | cons da rest =>
      obtain ⟨q, cs, o, hq, hcs, ho, rfl⟩ := work_ok h
      simp

theorem tick_kept {cfg : Cfg} {s : Scan X Lm} {c d : Conc X Lm s.nZ} {i j : Nat} (h : tick cfg s c j = .ok d) (hi : c.job i ≠ none) : d.job i ≠ none := by
  by_cases hij : i = j
  · subst hij; exact tick_begun h
  · rw [tick_other hij h]; exact hi

/-- A step of `j` moves behind the steps of `i`. -/
theorem move {N0 : Nat} {cfg : Cfg} {s : Scan X Lm} {d : Conc X Lm s.nZ} {i j : Nat} (hij : i ≠ j) (hi : i < N0) (hj : j < N0) (τ : List Nat) : ∀ (k : Nat) (c : Conc X Lm s.nZ), Safe N0 c → c.job i ≠ none →
    run cfg s (j :: (List.replicate k i ++ τ)) c = .ok d → run cfg s (List.replicate k i ++ j :: τ) c = .ok d := by
  intro k
  induction k with
  | zero => intro c _ _ h; exact h
  | succ k ih =>
    intro c hs hb h
    rw [List.replicate_succ, List.cons_append] at h ⊢
    obtain ⟨c1, h1, h2⟩ := run_cons.1 h
    obtain ⟨c2, h3, h4⟩ := run_cons.1 h2
    obtain ⟨c3, h5, h6⟩ := swap hij hj hs hb h1 h3
    exact run_cons.2 ⟨c3, h5, ih c3 (tick_safe hi hs h5) (tick_begun h5) (run_cons.2 ⟨c2, h6, h4⟩)⟩

/-- All steps of an iteration that has begun can be done first. -/
theorem pull {N0 : Nat} {cfg : Cfg} {s : Scan X Lm} {d : Conc X Lm s.nZ} {i : Nat} (hi : i < N0) : ∀ (σ : List Nat) (c : Conc X Lm s.nZ), (∀ j ∈ σ, j < N0) → Safe N0 c → c.job i ≠ none → run cfg s σ c = .ok d →
    run cfg s (List.replicate (σ.count i) i ++ σ.filter (· ≠ i)) c = .ok d := by
  intro σ
  induction σ with
  | nil => intro c _ _ _ h; exact h
  | cons j σ ih =>
    intro c hlt hs hb h
    obtain ⟨c1, h1, h2⟩ := run_cons.1 h
    have hj := hlt j List.mem_cons_self
    have h3 := ih c1 (fun k hk => hlt k (List.mem_cons_of_mem _ hk)) (tick_safe hj hs h1) (tick_kept h1 hb) h2
    by_cases hij : j = i
    · subst hij
      rw [List.count_cons_self, List.filter_cons_of_neg (by simp), List.replicate_succ, List.cons_append]
      exact run_cons.2 ⟨c1, h1, h3⟩
    · rw [List.count_cons_of_ne hij, List.filter_cons_of_pos (by simpa using hij)]
      exact move (Ne.symm hij) hi hj _ _ c hs hb (run_cons.2 ⟨c1, h1, h3⟩)

theorem set_put {P : List (PF.Part (PState X Lm) ℝ)} {k : Nat} {q : PF.Part (PState X Lm) ℝ} (h : P[k]? = some q) (o : Particle Lm × List (Cand Lm)) : P.set k (put q o) = P.modify k fun r => put r o := by
  obtain ⟨hk, hq⟩ := List.getElem?_eq_some_iff.1 h
  refine List.ext_getElem (by simp) fun j j1 j2 => ?_
  rw [List.getElem_set, List.getElem_modify]
  split
  · rename_i e; subst e; rw [hq]
  · rfl

theorem idle_run {cfg : Cfg} {s : Scan X Lm} {c : Conc X Lm s.nZ} {i n : Nat} {x : X} {lms} {h : Nat} (hj : c.job i = some ⟨n, x, lms, [], h⟩) : ∀ m, run cfg s (List.replicate m i) c = .ok c := by
  intro m
  induction m with
  | zero => rfl
  | succ m ih => exact run_cons.2 ⟨c, by unfold tick; rw [hj]; rfl, ih⟩

/-- All steps of one iteration after its critical section. -/
theorem works {cfg : Cfg} {s : Scan X Lm} {i n : Nat} {x : X} {lms : List (Nat × Lm × ℝ)} : ∀ (rest : List (Fin (max lms.length s.nZ) → Option (Fin s.nZ))) (h m : Nat) (c d : Conc X Lm s.nZ), c.job i = some ⟨n, x, lms, rest, h⟩ →
    (∀ a b, h ≤ a → a < h + rest.length → h ≤ b → b < h + rest.length → slot i n a = slot i n b → a = b) → run cfg s (List.replicate m i) c = .ok d → (∃ jb, d.job i = some jb ∧ jb.rest = []) →
    ∃ outs : List (Particle Lm × List (Cand Lm)), ∃ hl : outs.length = rest.length,
      (∀ t (ht : t < rest.length), ∃ q cs, c.f.parts[slot i n (h + t)]? = some q ∧ c.f.cands[slot i n (h + t)]? = some cs ∧ hypUpdate (s.env x) cfg s.prune lms rest[t] ⟨q.w, q.st.map⟩ cs = .ok (outs[t]'(by omega))) ∧
      d = ⟨{ c.f with parts := (outs.zipIdx h).foldl (fun P o => P.modify (slot i n o.2) fun q => put q o.1) c.f.parts, cands := (outs.zipIdx h).foldl (fun C o => C.set (slot i n o.2) o.1.2) c.f.cands },
        Function.update c.job i (some ⟨n, x, lms, [], h + rest.length⟩)⟩ := by
  intro rest
  induction rest with
  | nil =>
    intro h m c d hj _ hr _
    rw [idle_run hj m] at hr
    cases hr
    refine ⟨[], rfl, by simp, ?_⟩
    simp only [List.zipIdx_nil, List.foldl_nil, List.length_nil, Nat.add_zero]
    rw [← hj, Function.update_eq_self]
  | cons da rest ih =>
    intro h m c d hj hinj hr hfin
    cases m with
    | zero =>
      cases hr
      obtain ⟨jb, h1, h2⟩ := hfin
      rw [hj] at h1
      cases h1
      simp at h2
    | succ m =>
      rw [List.replicate_succ] at hr
      obtain ⟨c1, h1, h2⟩ := run_cons.1 hr
      unfold tick at h1
      rw [hj] at h1
      obtain ⟨q, cs, o, hq, hcs, ho, rfl⟩ := work_ok h1
      obtain ⟨outs, hl, g1, g2⟩ := ih (h + 1) m _ d (by simp only [Function.update_self]) (fun a b a1 a2 b1 b2 => hinj a b (by omega) (by simp only [List.length_cons]; omega) (by omega) (by simp only [List.length_cons]; omega)) h2 hfin
      refine ⟨o :: outs, by simp [hl], ?_, ?_⟩
      · intro t ht
        cases t with
        | zero => exact ⟨q, cs, hq, hcs, ho⟩
        | succ t =>
          simp only [List.length_cons] at ht
          obtain ⟨q', cs', k1, k2, k3⟩ := g1 t (by omega)
          have hne : slot i n h ≠ slot i n (h + 1 + t) := by
            intro e
            have := hinj h (h + 1 + t) le_rfl (by simp) (by omega) (by simp only [List.length_cons]; omega) e
            omega
          simp only at k1 k2
          rw [List.getElem?_set_ne hne] at k1 k2
          rw [show h + (t + 1) = h + 1 + t by omega]
          exact ⟨q', cs', k1, k2, by simpa using k3⟩
      · rw [g2]
        simp only [List.zipIdx_cons, List.foldl_cons, List.length_cons, Function.update_idem, set_put hq]
        rw [show h + (rest.length + 1) = h + 1 + rest.length by omega]

theorem slot_inj {i n nH : Nat} (hn : i + nH ≤ n) {a b : Nat} (ha : a < nH) (hb : b < nH) (h : slot i n a = slot i n b) : a = b := by
  unfold slot at h
  split at h <;> split at h <;> omega

theorem foldl_set_len {α β : Type*} (g : α → Nat) (v : α → β) (l : List α) : ∀ (C : List β), (l.foldl (fun D a => D.set (g a) (v a)) C).length = C.length := by
  induction l with
  | nil => intro C; rfl
  | cons a l ih => intro C; rw [List.foldl_cons, ih, List.length_set]

/-- Candidates copied to places that are written afterwards do not matter. -/
theorem putCands_copy (i n : Nat) (out : List (Particle Lm × List (Cand Lm))) (b : Bool) (C : List (List (Cand Lm))) (hn : i + out.length ≤ n) (hC : ∀ h < out.length, slot i n h < C.length) :
    putCands i n out (copyCands i n out.length b C) = putCands i n out C := by
  refine List.ext_getElem? fun k => ?_
  by_cases hk : ∃ h < out.length, slot i n h = k
  · obtain ⟨h, hh, rfl⟩ := hk
    have key : ∀ D : List (List (Cand Lm)), D.length = C.length → (putCands i n out D)[slot i n h]? = some out[h].2 := by
      intro D hD
      unfold putCands
      refine foldl_set_at (fun o : (Particle Lm × List (Cand Lm)) × Nat => slot i n o.2) (fun o => o.1.2) out.zipIdx D ?_ ?_ (out[h], h) (List.mem_zipIdx_iff_getElem?.2 (List.getElem?_eq_getElem hh))
      · rw [List.nodup_iff_injective_get]
        rintro ⟨a, ha⟩ ⟨b, hb⟩ hab
        simp only [List.get_eq_getElem, List.length_map, List.length_zipIdx] at ha hb hab
        simp only [List.getElem_map, List.getElem_zipIdx, Nat.zero_add] at hab
        exact Fin.ext (slot_inj hn ha hb hab)
      · intro a ha
        have := (List.getElem?_eq_some_iff.1 (List.mem_zipIdx_iff_getElem?.1 ha)).1
        rw [hD]
        exact hC _ this
    rw [key _ (copyCands_length _ _ _ _ _), key _ rfl]
  · push Not at hk
    rw [putCands_other _ _ _ _ _ (fun h hh => hk h hh), putCands_other _ _ _ _ _ (fun h hh => hk h hh), copyCands_other _ _ _ _ _ _ (fun h _ hh => hk h hh)]

theorem copyCands_at (i n nH : Nat) (C : List (List (Cand Lm))) (hn : i + nH ≤ n) (hC : n ≤ C.length) (h : Nat) (h0 : 0 < h) (hh : h < nH) : (copyCands i n nH true C)[slot i n h]? = some ((C[i]?).getD []) := by
  unfold copyCands
  rw [if_pos rfl]
  refine foldl_set_at (slot i n) (fun _ => (C[i]?).getD []) (List.range' 1 (nH - 1)) C ?_ ?_ h (by rw [List.mem_range'_1]; omega)
  · rw [List.nodup_map_iff_inj_on (List.nodup_range' ..)]
    intro a ha b hb hab
    rw [List.mem_range'_1] at ha hb
    exact slot_inj hn (by omega) (by omega) hab
  · intro a ha
    rw [List.mem_range'_1] at ha
    unfold slot
    split <;> omega

/-- An iteration run alone is `updateMap(i)`. -/
theorem block {N0 : Nat} {cfg : Cfg} {s : Scan X Lm} {c d : Conc X Lm s.nZ} {i m : Nat} (hi : i < N0) (hs : Safe N0 c) (hj : c.job i = none) (hr : run cfg s (i :: List.replicate m i) c = .ok d)
    (hfin : ∃ jb, d.job i = some jb ∧ jb.rest = []) : updateOne cfg s c.f i = .ok d.f := by
  obtain ⟨c1, h1, h2⟩ := run_cons.1 hr
  unfold tick at h1
  rw [hj] at h1
  obtain ⟨p, das, hp, hd, h0, hb, rfl⟩ := start_ok h1
  have hlen := hs.len
  obtain ⟨outs, hl, g1, g2⟩ := works das 0 m _ d (by simp only [Function.update_self]; rfl) (fun a b _ a2 _ b2 e => slot_inj (nH := das.length) (by omega) (by omega) (by omega) e) h2 hfin
  simp only [Nat.zero_add] at g1
  have hcl : ∀ h < das.length, slot i (c.f.parts.length + (das.length - 1)) h < c.f.cands.length := by
    intro h hh
    obtain ⟨q, cs, k1, k2, k3⟩ := g1 h hh
    have := (List.getElem?_eq_some_iff.1 k2).1
    rw [copyCands_length] at this
    exact this
  unfold updateOne
  rw [hp]
  simp only
  rw [hd]
  simp only
  rw [if_neg (by
    rintro ⟨h, hh, hle⟩
    have := hcl h hh
    omega)]
  have hum : updateMap (s.env p.st.x) cfg s.murty s.prune c.f.resampled ⟨p.w, p.st.map⟩ (fun h => (c.f.cands[slot i (c.f.parts.length + (das.length - 1)) h]?).getD []) = .ok outs := by
    unfold updateMap
    simp only
    rw [hd, bind_ok, if_neg h0, mapM_ok, List.forall₂_iff_get]
    refine ⟨by simp [hl], fun t t1 t2 => ?_⟩
    have ht : t < das.length := by simpa using t1
    obtain ⟨q, cs, k1, k2, k3⟩ := g1 t ht
    simp only [List.get_eq_getElem, List.getElem_zipIdx, Nat.zero_add]
    have hq : q.st = p.st ∧ q.w = if 1 < das.length then p.w / das.length else p.w := by
      by_cases h00 : t = 0
      · subst h00
        simp only [slot, if_true] at k1
        rw [List.getElem?_append_left (by rw [List.length_set]; omega), List.getElem?_set_self (by omega)] at k1
        cases k1
        exact ⟨rfl, rfl⟩
      · simp only [slot, if_neg h00] at k1
        rw [List.getElem?_append_right (by rw [List.length_set]; omega)] at k1
        have := List.mem_of_getElem? k1
        simp only [copies, List.mem_map] at this
        obtain ⟨e, -, rfl⟩ := this
        exact ⟨rfl, rfl⟩
    have hc : cs = if t = 0 ∨ c.f.resampled = true then (c.f.cands[slot i (c.f.parts.length + (das.length - 1)) 0]?).getD [] else (c.f.cands[slot i (c.f.parts.length + (das.length - 1)) t]?).getD [] := by
      by_cases h00 : t = 0
      · subst h00
        rw [if_pos (Or.inl rfl)]
        rw [copyCands_other] at k2
        · rw [k2]; rfl
        · intro h h3 h4
          simp only [slot, if_true]
          rw [if_neg (by omega)]
          omega
      · by_cases hrs : c.f.resampled = true
        · rw [if_pos (Or.inr hrs)]
          rw [hrs, copyCands_at _ _ _ _ (by omega) ?_ t (by omega) ht] at k2
          · simp only [slot, if_true]
            exact (Option.some.inj k2).symm
          · have hb' : ¬ c.f.cands.length < c.f.parts.length + (das.length - 1) := fun e => hb ⟨hrs, by omega, Or.inr e⟩
            omega
        · rw [if_neg (by tauto)]
          have hrf : c.f.resampled = false := by simpa using hrs
          rw [hrf] at k2
          simp only [copyCands, Bool.false_eq_true, if_false] at k2
          rw [k2]; rfl
    rw [← hc, ← hq.2]
    rw [hq.1] at k3
    exact k3
  rw [hum]
  simp only
  rw [split_eq _ _ _ _ hp]
  simp only
  rw [g2]
  simp only
  rw [← hl]
  have hpc := putCands_copy i (c.f.parts.length + (das.length - 1)) outs c.f.resampled c.f.cands (by omega) (by rw [hl]; exact hcl)
  rw [← hl] at hpc
  congr 2
  exact hpc.symm

/-- A schedule that gets all iterations done is as good as one iteration after the other, in some order. -/
theorem serial {N0 : Nat} {cfg : Cfg} {s : Scan X Lm} {d : Conc X Lm s.nZ} (hall : ∀ i < N0, ∃ jb, d.job i = some jb ∧ jb.rest = []) : ∀ (k : Nat) (σ : List Nat) (c : Conc X Lm s.nZ), σ.length ≤ k → (∀ j ∈ σ, j < N0) → Safe N0 c →
    (∀ i jb, c.job i = some jb → jb.rest = []) → run cfg s σ c = .ok d → ∃ ord : List Nat, ord.Nodup ∧ (∀ i, i ∈ ord ↔ i < N0 ∧ c.job i = none) ∧ ord.foldlM (updateOne cfg s) c.f = .ok d.f := by
  intro k
  induction k with
  | zero =>
    intro σ c hk _ _ _ h
    have : σ = [] := List.length_eq_zero_iff.1 (by omega)
    subst this
    cases h
    refine ⟨[], List.nodup_nil, fun i => ?_, rfl⟩
    simp only [List.not_mem_nil, false_iff, not_and]
    intro hi e
    obtain ⟨jb, h1, -⟩ := hall i hi
    rw [e] at h1; cases h1
  | succ k ih =>
    intro σ c hk hlt hs hdone h
    cases σ with
    | nil => exact ih [] c (by simp) hlt hs hdone h
    | cons i σ =>
      have hi := hlt i List.mem_cons_self
      have hlt' : ∀ j ∈ σ, j < N0 := fun j hj => hlt j (List.mem_cons_of_mem _ hj)
      simp only [List.length_cons] at hk
      obtain ⟨c1, h1, h2⟩ := run_cons.1 h
      cases hj : c.job i with
      | some jb =>
        have hrest := hdone i jb hj
        obtain ⟨n, x, lms, rest, h'⟩ := jb
        simp only at hrest
        subst hrest
        have : c1 = c := by
          unfold tick at h1
          rw [hj] at h1
          cases h1
          rfl
        subst this
        exact ih σ c1 (by omega) hlt' hs hdone h2
      | none =>
        have h3 := pull hi σ c1 hlt' (tick_safe hi hs h1) (tick_begun h1) h2
        obtain ⟨c2, h4, h5⟩ := run_append.1 h3
        have hsafe : ∀ (τ : List Nat) (a b : Conc X Lm s.nZ), (∀ j ∈ τ, j < N0) → Safe N0 a → run cfg s τ a = .ok b → Safe N0 b := by
          intro τ
          induction τ with
          | nil => intro a b _ ha hb; cases hb; exact ha
          | cons j τ ih' =>
            intro a b hl ha hb
            obtain ⟨a1, e1, e2⟩ := run_cons.1 hb
            exact ih' a1 b (fun j' hj' => hl j' (List.mem_cons_of_mem _ hj')) (tick_safe (hl j List.mem_cons_self) ha e1) e2
        have hother : ∀ (τ : List Nat) (a b : Conc X Lm s.nZ) (j : Nat), j ∉ τ → run cfg s τ a = .ok b → b.job j = a.job j := by
          intro τ
          induction τ with
          | nil => intro a b _ _ hb; cases hb; rfl
          | cons j' τ ih' =>
            intro a b j hl hb
            obtain ⟨a1, e1, e2⟩ := run_cons.1 hb
            rw [ih' a1 b j (fun hj' => hl (List.mem_cons_of_mem _ hj')) e2, tick_other (fun e => hl (by rw [e]; exact List.mem_cons_self)) e1]
        have hc2i : c2.job i = d.job i := (hother _ c2 d i (by simp) h5).symm
        have hbl : run cfg s (i :: List.replicate (σ.count i) i) c = .ok c2 := run_cons.2 ⟨c1, h1, h4⟩
        have hupd := block hi hs hj hbl (by rw [hc2i]; exact hall i hi)
        have hs2 : Safe N0 c2 := hsafe _ c c2 (by
          intro j hj'
          rcases List.mem_cons.1 hj' with rfl | hj'
          · exact hi
          · rw [(List.mem_replicate.1 hj').2]; exact hi) hs hbl
        have hoth2 : ∀ j, j ≠ i → c2.job j = c.job j := by
          intro j hji
          refine hother _ c c2 j ?_ hbl
          simp only [List.mem_cons, List.mem_replicate, not_or, not_and]
          exact ⟨hji, fun _ => hji⟩
        have hdone2 : ∀ j jb, c2.job j = some jb → jb.rest = [] := by
          intro j jb hjb
          by_cases hji : j = i
          · subst hji
            obtain ⟨jb', e1, e2⟩ := hall j hi
            rw [hc2i, e1] at hjb
            cases hjb
            exact e2
          · exact hdone j jb (by rw [← hoth2 j hji]; exact hjb)
        obtain ⟨ord, o1, o2, o3⟩ := ih (σ.filter (· ≠ i)) c2 (by have := List.length_filter_le (· ≠ i) σ; omega) (fun j hj' => hlt' j (List.mem_of_mem_filter hj')) hs2 hdone2 h5
        have hci : c2.job i ≠ none := by
          rw [hc2i]
          obtain ⟨jb', e1, -⟩ := hall i hi
          rw [e1]; simp
        refine ⟨i :: ord, List.nodup_cons.2 ⟨fun hm => hci ((o2 i).1 hm).2, o1⟩, fun j => ?_, ?_⟩
        · rw [List.mem_cons, o2]
          by_cases hji : j = i
          · subst hji
            simp [hi, hj]
          · rw [hoth2 j hji]
            simp [hji]
        · rw [List.foldlM_cons, hupd]
          exact o3

theorem works_succeed {cfg : Cfg} {s : Scan X Lm} {i n : Nat} {x : X} {lms : List (Nat × Lm × ℝ)} : ∀ (rest : List (Fin (max lms.length s.nZ) → Option (Fin s.nZ))) (h : Nat) (c : Conc X Lm s.nZ), c.job i = some ⟨n, x, lms, rest, h⟩ →
    (∀ a b, h ≤ a → a < h + rest.length → h ≤ b → b < h + rest.length → slot i n a = slot i n b → a = b) →
    (∀ t (ht : t < rest.length), ∃ q cs o, c.f.parts[slot i n (h + t)]? = some q ∧ c.f.cands[slot i n (h + t)]? = some cs ∧ hypUpdate (s.env x) cfg s.prune lms rest[t] ⟨q.w, q.st.map⟩ cs = .ok o) →
    ∃ d, run cfg s (List.replicate rest.length i) c = .ok d ∧ ∃ jb, d.job i = some jb ∧ jb.rest = [] := by
  intro rest
  induction rest with
  | nil => intro h c hj _ _; exact ⟨c, rfl, _, hj, rfl⟩
  | cons da rest ih =>
    intro h c hj hinj hall
    obtain ⟨q, cs, o, hq, hcs, ho⟩ := hall 0 (by simp)
    have hw := work_of (s := s) (cfg := cfg) (c := c) (i := i) (rest := rest) hq hcs ho
    obtain ⟨d, d1, d2⟩ := ih (h + 1) ⟨{ c.f with parts := c.f.parts.set (slot i n h) (put q o), cands := c.f.cands.set (slot i n h) o.2 }, Function.update c.job i (some ⟨n, x, lms, rest, h + 1⟩)⟩ (by simp only [Function.update_self])
      (fun a b a1 a2 b1 b2 => hinj a b (by omega) (by simp only [List.length_cons]; omega) (by omega) (by simp only [List.length_cons]; omega)) (by
        intro t ht
        obtain ⟨q', cs', o', k1, k2, k3⟩ := hall (t + 1) (by simp only [List.length_cons]; omega)
        have hne : slot i n h ≠ slot i n (h + 1 + t) := by
          intro e
          have := hinj h (h + 1 + t) le_rfl (by simp) (by omega) (by simp only [List.length_cons]; omega) e
          omega
        rw [show h + (t + 1) = h + 1 + t by omega] at k1 k2
        refine ⟨q', cs', o', ?_, ?_, by simpa using k3⟩
        · simp only; rw [List.getElem?_set_ne hne]; exact k1
        · simp only; rw [List.getElem?_set_ne hne]; exact k2)
    refine ⟨d, ?_, d2⟩
    rw [List.length_cons, List.replicate_succ]
    refine run_cons.2 ⟨_, ?_, d1⟩
    unfold tick
    rw [hj]
    exact hw

/-- `updateMap(i)` is the iteration run alone. -/
theorem block_of {N0 : Nat} {cfg : Cfg} {s : Scan X Lm} {c : Conc X Lm s.nZ} {i : Nat} {f' : Filt X Lm} (hi : i < N0) (hs : Safe N0 c) (hj : c.job i = none) (h : updateOne cfg s c.f i = .ok f') :
    ∃ m d, run cfg s (i :: List.replicate m i) c = .ok d ∧ d.f = f' ∧ (∃ jb, d.job i = some jb ∧ jb.rest = []) ∧ ∀ j, j ≠ i → d.job j = c.job j := by
  have hu := h
  have hlen := hs.len
  unfold updateOne at h
  split at h
  · cases h
  · rename_i p hp
    split at h
    · cases h
    · rename_i das hd
      split at h
      · cases h
      · rename_i hnb
        push Not at hnb
        split at h
        · cases h
        · rename_i out hout
          obtain ⟨hne, hol, -⟩ := updateMap_facts hd hout
          have h0 : das.length ≠ 0 := fun e => hne (List.length_eq_zero_iff.1 e)
          have hst := start_of (c := c) hp hd h0 (by
            rintro ⟨-, b1, b2⟩
            have k0 := hnb 0 (by omega)
            have k1 := hnb 1 b1
            simp only [slot, if_true] at k0
            simp only [slot, if_neg one_ne_zero] at k1
            omega)
          unfold updateMap at hout
          simp only at hout
          rw [hd, bind_ok, if_neg h0, mapM_ok] at hout
          have hfa := List.forall₂_iff_get.1 hout
          obtain ⟨d, d1, d2⟩ := works_succeed (cfg := cfg) (i := i) (n := c.f.parts.length + (das.length - 1)) (x := p.st.x) (lms := inRange (s.env p.st.x) p.st.map) das 0
            ⟨{ c.f with parts := c.f.parts.set i (share p das.length) ++ copies p das.length c.f.parts.length, cands := copyCands i (c.f.parts.length + (das.length - 1)) das.length c.f.resampled c.f.cands },
              Function.update c.job i (some ⟨c.f.parts.length + (das.length - 1), p.st.x, inRange (s.env p.st.x) p.st.map, das, 0⟩)⟩
            (by simp only [Function.update_self]) (fun a b _ a2 _ b2 e => slot_inj (nH := das.length) (by omega) (by omega) (by omega) e) (by
              intro t ht
              simp only [Nat.zero_add]
              have hsl := hnb t ht
              have hq : ∃ q, (c.f.parts.set i (share p das.length) ++ copies p das.length c.f.parts.length)[slot i (c.f.parts.length + (das.length - 1)) t]? = some q ∧ q.st = p.st ∧ q.w = if 1 < das.length then p.w / das.length else p.w := by
                by_cases h00 : t = 0
                · subst h00
                  refine ⟨share p das.length, ?_, rfl, rfl⟩
                  simp only [slot, if_true]
                  rw [List.getElem?_append_left (by rw [List.length_set]; omega), List.getElem?_set_self (by omega)]
                · have hlt : c.f.parts.length + (das.length - 1) - t - (c.f.parts.set i (share p das.length)).length < (copies p das.length c.f.parts.length).length := by
                    rw [copies_length, List.length_set]; omega
                  have hmem := List.getElem_mem hlt
                  refine ⟨(copies p das.length c.f.parts.length)[c.f.parts.length + (das.length - 1) - t - (c.f.parts.set i (share p das.length)).length], ?_, ?_⟩
                  · simp only [slot, if_neg h00]
                    rw [List.getElem?_append_right (by rw [List.length_set]; omega), List.getElem?_eq_getElem hlt]
                  · generalize (copies p das.length c.f.parts.length)[c.f.parts.length + (das.length - 1) - t - (c.f.parts.set i (share p das.length)).length] = q at hmem
                    simp only [copies, List.mem_map] at hmem
                    obtain ⟨e, -, rfl⟩ := hmem
                    exact ⟨rfl, rfl⟩
              obtain ⟨q, q1, q2, q3⟩ := hq
              have hg := hfa.2 t (by simpa using ht) (by omega)
              simp only [List.get_eq_getElem, List.getElem_zipIdx, Nat.zero_add] at hg
              have hcl : slot i (c.f.parts.length + (das.length - 1)) t < (copyCands i (c.f.parts.length + (das.length - 1)) das.length c.f.resampled c.f.cands).length := by
                rw [copyCands_length]; exact hsl
              have hcs : (copyCands i (c.f.parts.length + (das.length - 1)) das.length c.f.resampled c.f.cands)[slot i (c.f.parts.length + (das.length - 1)) t]? =
                  some (if t = 0 ∨ c.f.resampled = true then (c.f.cands[slot i (c.f.parts.length + (das.length - 1)) 0]?).getD [] else (c.f.cands[slot i (c.f.parts.length + (das.length - 1)) t]?).getD []) := by
                by_cases h00 : t = 0
                · subst h00
                  rw [if_pos (Or.inl rfl), copyCands_other]
                  · rw [List.getElem?_eq_getElem hsl]; rfl
                  · intro h h3 h4
                    simp only [slot, if_true]
                    rw [if_neg (by omega)]
                    omega
                · by_cases hrs : c.f.resampled = true
                  · rw [if_pos (Or.inr hrs), hrs, copyCands_at _ _ _ _ (by omega) ?_ t (by omega) ht]
                    · simp only [slot, if_true]
                    · have k1 := hnb 1 (by omega)
                      simp only [slot, if_neg one_ne_zero] at k1
                      omega
                  · have hrf : c.f.resampled = false := by simpa using hrs
                    rw [if_neg (by tauto), hrf]
                    simp only [copyCands, Bool.false_eq_true, if_false]
                    rw [List.getElem?_eq_getElem hsl]; rfl
              refine ⟨q, _, out[t]'(by omega), q1, hcs, ?_⟩
              rw [q2, q3]
              exact hg)
          have hr : run cfg s (i :: List.replicate das.length i) c = .ok d := run_cons.2 ⟨_, by unfold tick; rw [hj]; exact hst, d1⟩
          refine ⟨das.length, d, hr, ?_, d2, ?_⟩
          · have := block hi hs hj hr d2
            rw [hu] at this
            exact (Except.ok.inj this).symm
          · intro j hji
            have hother : ∀ (τ : List Nat) (a b : Conc X Lm s.nZ), j ∉ τ → run cfg s τ a = .ok b → b.job j = a.job j := by
              intro τ
              induction τ with
              | nil => intro a b _ hb; cases hb; rfl
              | cons j' τ ih' =>
                intro a b hl hb
                obtain ⟨a1, e1, e2⟩ := run_cons.1 hb
                rw [ih' a1 b (fun hj' => hl (List.mem_cons_of_mem _ hj')) e2, tick_other (fun e => hl (by rw [e]; exact List.mem_cons_self)) e1]
            refine hother _ c d ?_ hr
            simp only [List.mem_cons, List.mem_replicate, not_or, not_and]
            exact ⟨hji, fun _ => hji⟩

/-- Every order is a schedule. -/
theorem unserial {N0 : Nat} {cfg : Cfg} {s : Scan X Lm} : ∀ (ord : List Nat) (c : Conc X Lm s.nZ) (f' : Filt X Lm), ord.Nodup → (∀ i ∈ ord, i < N0) → Safe N0 c → (∀ i ∈ ord, c.job i = none) → ord.foldlM (updateOne cfg s) c.f = .ok f' →
    ∃ σ d, (∀ j ∈ σ, j < N0) ∧ run cfg s σ c = .ok d ∧ d.f = f' ∧ (∀ i ∈ ord, ∃ jb, d.job i = some jb ∧ jb.rest = []) ∧ ∀ j, j ∉ ord → d.job j = c.job j := by
  intro ord
  induction ord with
  | nil => intro c f' _ _ _ _ h; cases h; exact ⟨[], c, by simp, rfl, rfl, by simp, fun _ _ => rfl⟩
  | cons i ord ih =>
    intro c f' hnd hlt hs hj h
    rw [List.nodup_cons] at hnd
    rw [List.foldlM_cons] at h
    cases hu : updateOne cfg s c.f i with
    | error e => rw [hu] at h; cases h
    | ok g =>
      rw [hu] at h
      obtain ⟨m, c1, h1, rfl, h3, h4⟩ := block_of (hlt i List.mem_cons_self) hs (hj i List.mem_cons_self) hu
      have hl1 : ∀ j ∈ i :: List.replicate m i, j < N0 := by
        intro j hj'
        have : j = i := by
          rcases List.mem_cons.1 hj' with rfl | hj'
          · rfl
          · exact (List.mem_replicate.1 hj').2
        rw [this]; exact hlt i List.mem_cons_self
      have hsafe : ∀ (τ : List Nat) (a b : Conc X Lm s.nZ), (∀ j ∈ τ, j < N0) → Safe N0 a → run cfg s τ a = .ok b → Safe N0 b := by
        intro τ
        induction τ with
        | nil => intro a b _ ha hb; cases hb; exact ha
        | cons j τ ih' =>
          intro a b hl ha hb
          obtain ⟨a1, e1, e2⟩ := run_cons.1 hb
          exact ih' a1 b (fun j' hj' => hl j' (List.mem_cons_of_mem _ hj')) (tick_safe (hl j List.mem_cons_self) ha e1) e2
      have hne : ∀ j ∈ ord, j ≠ i := fun j hj' e => hnd.1 (by rw [← e]; exact hj')
      obtain ⟨σ, d, s1, s2, s3, s4, s5⟩ := ih c1 f' hnd.2 (fun j hj' => hlt j (List.mem_cons_of_mem _ hj')) (hsafe _ c c1 hl1 hs h1) (fun j hj' => by rw [h4 j (hne j hj')]; exact hj j (List.mem_cons_of_mem _ hj')) h
      refine ⟨(i :: List.replicate m i) ++ σ, d, ?_, run_append.2 ⟨c1, h1, s2⟩, s3, ?_, ?_⟩
      · intro j hj'
        rcases List.mem_append.1 hj' with hj' | hj'
        · exact hl1 j hj'
        · exact s1 j hj'
      · intro j hj'
        rcases List.mem_cons.1 hj' with rfl | hj'
        · rw [s5 j hnd.1]; exact h3
        · exact s4 j hj'
      · intro j hj'
        simp only [List.mem_cons, not_or] at hj'
        rw [s5 j hj'.2, h4 j hj'.1]

/-- Room for the copies still to come. -/
structure Room (N0 H : Nat) {nZ : Nat} (c : Conc X Lm nZ) : Prop where
  len : c.f.parts.length ≤ N0 + ((Finset.range N0).filter fun i => (c.job i).isSome).card * (H - 1)
  cands : N0 * H ≤ c.f.cands.length
  some : ∀ i jb, c.job i = some jb → 0 < H

theorem fresh_room {H nZ : Nat} {f : Filt X Lm} (h : f.parts.length * H ≤ f.cands.length) : Room f.parts.length H (fresh nZ f : Conc X Lm nZ) :=
  ⟨by simp [fresh], h, fun i jb h => by simp [fresh] at h⟩

theorem tick_room {N0 : Nat} {cfg : Cfg} {s : Scan X Lm} {c d : Conc X Lm s.nZ} {i : Nat} (hi : i < N0) (hr : Room N0 cfg.maxHyp c) (h : tick cfg s c i = .ok d) : Room N0 cfg.maxHyp d := by
  unfold tick at h
  split at h
  · rename_i hj
    obtain ⟨p, das, hp, hd, h0, h1, rfl⟩ := start_ok h
    have hH := hypotheses_length hd
    have hcard : ((Finset.range N0).filter fun k => ((Function.update c.job i (some (⟨c.f.parts.length + (das.length - 1), p.st.x, inRange (s.env p.st.x) p.st.map, das, 0⟩ : Job X Lm s.nZ))) k).isSome).card =
        ((Finset.range N0).filter fun k => (c.job k).isSome).card + 1 := by
      rw [← Finset.card_insert_of_notMem (a := i) (s := (Finset.range N0).filter fun k => (c.job k).isSome) (by simp [hj])]
      congr 1
      ext k
      simp only [Finset.mem_filter, Finset.mem_range, Finset.mem_insert]
      by_cases hk : k = i
      · subst hk; simp [hi]
      · simp [hk]
    refine ⟨?_, ?_, fun k jb _ => by omega⟩
    · simp only
      rw [hcard, List.length_append, List.length_set, copies_length, Nat.add_mul, Nat.one_mul]
      have := hr.len
      omega
    · simp only [copyCands_length]
      exact hr.cands
  · rename_i jb hj
    obtain ⟨n, x, lms, rest, h'⟩ := jb
    cases rest with
    | nil => cases h; exact hr
    | cons da rest =>
      obtain ⟨q, cs, o, hq, hcs, ho, rfl⟩ := work_ok h
      refine ⟨?_, by simp only [List.length_set]; exact hr.cands, fun k jb _ => hr.some i _ hj⟩
      simp only [List.length_set]
      have : ((Finset.range N0).filter fun k => ((Function.update c.job i (some (⟨n, x, lms, rest, h' + 1⟩ : Job X Lm s.nZ))) k).isSome) = (Finset.range N0).filter fun k => (c.job k).isSome := by
        refine Finset.filter_congr fun k _ => ?_
        by_cases hk : k = i
        · subst hk; simp [hj]
        · simp [hk]
      rw [this]
      exact hr.len

theorem room_parts {N0 H nZ : Nat} {c : Conc X Lm nZ} (hr : Room N0 H c) (hH : 0 < H) : c.f.parts.length ≤ c.f.cands.length := by
  obtain ⟨m, rfl⟩ : ∃ m, H = m + 1 := ⟨H - 1, by omega⟩
  have h1 := hr.len
  have h2 := hr.cands
  have h3 : ((Finset.range N0).filter fun i => (c.job i).isSome).card ≤ N0 := (Finset.card_filter_le _ _).trans (by simp)
  have h4 := Nat.mul_le_mul_right m h3
  rw [Nat.add_sub_cancel] at h1
  rw [Nat.mul_succ] at h2
  omega

theorem tick_err {N0 : Nat} {cfg : Cfg} {s : Scan X Lm} {c : Conc X Lm s.nZ} {i : Nat} (hi : i < N0) (hs : Safe N0 c) (hr : Room N0 cfg.maxHyp c) {e : RErr} (h : tick cfg s c i = .error e) : ∃ e', e = .upd e' := by
  have hl := hs.len
  unfold tick at h
  split at h
  · rename_i hj
    unfold start at h
    split at h
    · rename_i hn
      rw [List.getElem?_eq_none_iff] at hn
      omega
    · rename_i p hp
      split at h
      · cases h; exact ⟨_, rfl⟩
      · rename_i das hd
        split at h
        · cases h; exact ⟨_, rfl⟩
        · split at h
          · rename_i hbad
            exfalso
            obtain ⟨-, b1, b2⟩ := hbad
            have hH := hypotheses_length hd
            have h1 := hr.len
            have h2 := hr.cands
            have h3 : ((Finset.range N0).filter fun k => (c.job k).isSome).card + 1 ≤ N0 := by
              rw [← Finset.card_insert_of_notMem (a := i) (s := (Finset.range N0).filter fun k => (c.job k).isSome) (by simp [hj])]
              refine (Finset.card_le_card (t := Finset.range N0) ?_).trans (by simp)
              intro k hk
              simp only [Finset.mem_insert, Finset.mem_filter] at hk
              rcases hk with rfl | hk
              · simpa using hi
              · exact hk.1
            obtain ⟨m, hm⟩ : ∃ m, cfg.maxHyp = m + 1 := ⟨cfg.maxHyp - 1, by omega⟩
            have h4 := Nat.mul_le_mul_right m h3
            rw [hm, Nat.add_sub_cancel] at h1
            rw [hm, Nat.mul_succ] at h2
            rw [Nat.add_mul, Nat.one_mul] at h4
            omega
          · rw [split_eq _ _ _ _ hp] at h
            cases h
  · rename_i jb hj
    obtain ⟨n, x, lms, rest, h'⟩ := jb
    cases rest with
    | nil => cases h
    | cons da rest =>
      unfold work at h
      simp only at h
      have hsl := (own_slot (hs.own i _ hj) h' (by simp)).1
      have hcl := room_parts hr (hr.some i _ hj)
      simp only at hsl
      rw [List.getElem?_eq_getElem hsl, List.getElem?_eq_getElem (hsl.trans_le hcl)] at h
      simp only at h
      split at h
      · cases h; exact ⟨_, rfl⟩
      · cases h

theorem run_inv {N0 : Nat} {cfg : Cfg} {s : Scan X Lm} : ∀ (σ : List Nat) (c d : Conc X Lm s.nZ), (∀ j ∈ σ, j < N0) → Safe N0 c → Room N0 cfg.maxHyp c → run cfg s σ c = .ok d → Safe N0 d ∧ Room N0 cfg.maxHyp d := by
  intro σ
  induction σ with
  | nil => intro c d _ hs hr h; cases h; exact ⟨hs, hr⟩
  | cons i σ ih =>
    intro c d hl hs hr h
    obtain ⟨c1, e1, e2⟩ := run_cons.1 h
    have hi := hl i List.mem_cons_self
    exact ih c1 d (fun j hj => hl j (List.mem_cons_of_mem _ hj)) (tick_safe hi hs e1) (tick_room hi hr e1) e2

theorem run_err {N0 : Nat} {cfg : Cfg} {s : Scan X Lm} {e : RErr} : ∀ (σ : List Nat) (c : Conc X Lm s.nZ), (∀ j ∈ σ, j < N0) → Safe N0 c → Room N0 cfg.maxHyp c → run cfg s σ c = .error e → ∃ e', e = .upd e' := by
  intro σ
  induction σ with
  | nil => intro c _ _ _ h; cases h
  | cons i σ ih =>
    intro c hl hs hr h
    have hi := hl i List.mem_cons_self
    unfold run at h
    rw [List.foldlM_cons] at h
    cases ht : tick cfg s c i with
    | error e1 =>
      rw [ht] at h
      cases h
      exact tick_err hi hs hr ht
    | ok c1 =>
      rw [ht] at h
      exact ih c1 (fun j hj => hl j (List.mem_cons_of_mem _ hj)) (tick_safe hi hs ht) (tick_room hi hr ht) h

/-! ### Different orders -/

theorem mapM_congr' {α β ε : Type} {g g' : α → Except ε β} : ∀ (l : List α), (∀ x ∈ l, g x = g' x) → l.mapM g = l.mapM g' := by
  intro l
  induction l with
  | nil => intro _; rfl
  | cons a l ih =>
    intro h
    rw [List.mapM_cons, List.mapM_cons, h a List.mem_cons_self, ih fun x hx => h x (List.mem_cons_of_mem _ hx)]

theorem updateMap_congr {nZ : Nat} {env : Env Lm nZ} {cfg : Cfg} {murty : ∀ m, Mat ℝ m → List ((Fin m → Fin m) × ℝ)} {prune : List (Lm × ℝ) → List (Lm × ℝ)} {r : Bool} {p : Particle Lm}
    {c c' : Nat → List (Cand Lm)} {das} (hd : hypotheses cfg nZ murty (table env cfg (inRange env p.map)) = .ok das) (h0 : c 0 = c' 0) (hh : r = false → ∀ h, 0 < h → h < das.length → c h = c' h) :
    updateMap env cfg murty prune r p c = updateMap env cfg murty prune r p c' := by
  unfold updateMap
  rw [hd, bind_ok, bind_ok]
  split
  · rfl
  · refine mapM_congr' _ fun x hx => ?_
    have hx2 := (List.getElem?_eq_some_iff.1 (List.mem_zipIdx_iff_getElem?.1 hx)).1
    congr 1
    by_cases hx0 : x.2 = 0
    · rw [if_pos (Or.inl hx0), if_pos (Or.inl hx0), h0]
    · cases r with
      | true => rw [if_pos (Or.inr rfl), if_pos (Or.inr rfl), h0]
      | false => rw [if_neg (by simp [hx0]), if_neg (by simp [hx0]), hh rfl _ (by omega) hx2]

theorem hypotheses_of {nZ : Nat} {env : Env Lm nZ} {cfg : Cfg} {murty : ∀ m, Mat ℝ m → List ((Fin m → Fin m) × ℝ)} {prune : List (Lm × ℝ) → List (Lm × ℝ)} {r : Bool} {p : Particle Lm}
    {c : Nat → List (Cand Lm)} {out} (h : updateMap env cfg murty prune r p c = .ok out) : ∃ das, hypotheses cfg nZ murty (table env cfg (inRange env p.map)) = .ok das ∧ out.length = das.length := by
  cases hd : hypotheses cfg nZ murty (table env cfg (inRange env p.map)) with
  | error e => unfold updateMap at h; rw [hd] at h; cases h
  | ok das => exact ⟨das, rfl, (updateMap_facts hd h).2.1⟩

/-- The candidates that the copies start with do not depend on the place of the copy. -/
def Alike (f : Filt X Lm) : Prop := f.resampled = true ∨ ∀ k, f.parts.length ≤ k → (f.cands[k]?).getD [] = []

theorem made_det {cfg : Cfg} {s : Scan X Lm} {f : Filt X Lm} (ha : Alike f) {q : PF.Part (PState X Lm) ℝ × Nat} {out out' : List (Particle Lm × List (Cand Lm))} (h : Made cfg s f q out) (h' : Made cfg s f q out') : out = out' := by
  obtain ⟨c, c0, c1, c2⟩ := h
  obtain ⟨c', c0', c1', c2'⟩ := h'
  obtain ⟨das, hd, hl⟩ := hypotheses_of c1
  obtain ⟨das', hd', hl'⟩ := hypotheses_of c1'
  rw [hd] at hd'
  cases hd'
  rw [updateMap_congr hd (c0.trans c0'.symm)] at c1
  · exact Except.ok.inj (c1.symm.trans c1')
  · intro hr h h0 hh
    rcases ha with ha | ha
    · rw [ha] at hr; cases hr
    · obtain ⟨k, k1, k2⟩ := c2 h h0 (by omega)
      obtain ⟨k', k1', k2'⟩ := c2' h h0 (by omega)
      rw [k2, k2', ha k k1, ha k' k1']

theorem updateOne_succeeds {cfg : Cfg} {s : Scan X Lm} {f0 f : Filt X Lm} {i : Nat} {done : List Nat} (hi : i < f0.parts.length) (hid : i ∉ done) (hdn : done.length < f0.parts.length)
    (hL : f0.parts.length * cfg.maxHyp ≤ f0.cands.length) (hm : MidO cfg s f0 done f) (ha : Alike f0) {out} (hmade : Made cfg s f0 (f0.parts[i], i) out) : ∃ f', updateOne cfg s f i = .ok f' := by
  cases hu : updateOne cfg s f i with
  | ok f' => exact ⟨f', rfl⟩
  | error e =>
    exfalso
    obtain ⟨e', rfl⟩ := updateOne_err hi hid hdn hL hm e hu
    obtain ⟨c, c0, c1, c2⟩ := hmade
    obtain ⟨das, hd, hl⟩ := hypotheses_of c1
    simp only at c0 c1 hd
    obtain ⟨A, C, -, h1, h2, h2', -⟩ := hm.parts
    have hp : f.parts[i]? = some f0.parts[i] := by
      rw [h1, List.getElem?_append_left (by omega), h2' i hid, List.getElem?_eq_getElem hi]
    have hle : f0.parts.length ≤ f.parts.length := by rw [h1, List.length_append]; omega
    unfold updateOne at hu
    rw [hp] at hu
    simp only at hu
    rw [hd] at hu
    simp only at hu
    split at hu
    · cases hu
    · rw [updateMap_congr (c' := c) hd, hm.res, c1] at hu
      · simp only at hu
        rw [split_eq _ _ _ _ hp] at hu
        cases hu
      · simp only [slot, if_true]
        rw [c0, hm.cands i hid hi]
      · intro hr h h0 hh
        have hsl : f.parts.length ≤ slot i (f.parts.length + (das.length - 1)) h := by unfold slot; rw [if_neg (by omega)]; omega
        rw [hm.free _ hsl]
        rcases ha with ha | ha
        · rw [hm.res, ha] at hr; cases hr
        · obtain ⟨k, k1, k2⟩ := c2 h h0 (by omega)
          rw [k2, ha k k1, ha _ (hle.trans hsl)]

/-- If one order succeeds every other does. -/
theorem fold_succeeds {cfg : Cfg} {s : Scan X Lm} {f0 : Filt X Lm} (hL : f0.parts.length * cfg.maxHyp ≤ f0.cands.length) (h0 : ∀ p ∈ f0.parts, p.id < f0.cands.length ∧ p.parent < f0.cands.length) (ha : Alike f0)
    (hmade : ∀ i (hi : i < f0.parts.length), ∃ out, Made cfg s f0 (f0.parts[i], i) out) (ord : List Nat) : ord.Nodup → (∀ j ∈ ord, j < f0.parts.length) → ∃ f, ord.foldlM (updateOne cfg s) f0 = .ok f := by
  induction ord using List.reverseRecOn with
  | nil => intro _ _; exact ⟨f0, rfl⟩
  | append_singleton done i ih =>
    intro hnd hlt
    obtain ⟨n1, -, n2⟩ := List.nodup_append.1 hnd
    obtain ⟨g, hg⟩ := ih n1 (fun j hj => hlt j (by simp [hj]))
    have hlen : (done ++ [i]).length ≤ f0.parts.length := by
      have := List.Subperm.length_le (List.subperm_of_subset hnd (fun j hj => List.mem_range.2 (hlt j hj)))
      simpa using this
    have hi := hlt i (by simp)
    obtain ⟨out, ho⟩ := hmade i hi
    obtain ⟨f, hf⟩ := updateOne_succeeds hi (fun hi => n2 i hi i (by simp) rfl) (by simpa using hlen) hL (mid_foldO hL h0 done n1 (fun j hj => hlt j (by simp [hj])) g hg) ha ho
    exact ⟨f, by rw [foldlM_snoc, hg]; exact hf⟩

end FastThreads
end RFS
