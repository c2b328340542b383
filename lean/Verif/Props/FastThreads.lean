import Verif.Lemmas.FastThreads
import Verif.Props.FastRuns

/-!
Properties of the threads of `FastSLAM::update` (`Verif.Model.FastThreads`): different iterations keep to different places, every interleaving is as good as one
particle after the other, and when the result depends on the interleaving.
-/

set_option linter.unusedSectionVars false

namespace RFS
namespace FastThreadsProps
open FastSLAM FastRuns FastThreads FastRunsProps
open Hungarian (Mat)
open FastSLAMProps (twoEnv twoCfg twoMurty two_ok two_hyp cands_kept)

variable {X Lm : Type}

/-- The scan, the particles taken in the order `ord`. -/
def ordered (s : Scan X Lm) (N : Nat) (ord : List Nat) : Scan X Lm := { s with order := fun n => if n = N then ord else List.range n }

theorem updateOne_order (cfg : Cfg) (s : Scan X Lm) (N : Nat) (ord : List Nat) : updateOne cfg (ordered s N ord) = updateOne cfg s := by
  funext f i
  obtain ⟨nZ, env, murty, prune, t, tp, r, order⟩ := s
  unfold updateOne ordered
  simp only
  cases f.parts[i]? with
  | none => rfl
  | some p =>
    simp only
    cases hypotheses cfg nZ murty (table (env p.st.x) cfg (inRange (env p.st.x) p.st.map)) <;> rfl

theorem ordered_perm {s : Scan X Lm} {N : Nat} {ord : List Nat} (h : ord.Perm (List.range N)) (n : Nat) : ((ordered s N ord).order n).Perm (List.range n) := by
  unfold ordered
  simp only
  split
  · rename_i e; subst e; exact h
  · exact List.Perm.refl _

/-- A schedule that gets every iteration of the loop done. -/
structure Whole (cfg : RCfg) (s : Scan X Lm) (σ : List Nat) (f : Filt X Lm) : Prop where
  lt : ∀ j ∈ σ, j < f.parts.length
  done : ∀ c, run cfg.cfg s σ (fresh s.nZ (begun cfg s f)) = .ok c → ∀ i < f.parts.length, ∃ jb, c.job i = some jb ∧ jb.rest = []

/-- The steps an iteration still needs. -/
def steps (H : Nat) {nZ : Nat} (c : Conc X Lm nZ) (i : Nat) : Nat :=
  match c.job i with
  | none => H + 1
  | some jb => jb.rest.length

theorem tick_steps {cfg : Cfg} {s : Scan X Lm} {c d : Conc X Lm s.nZ} {i : Nat} (h : tick cfg s c i = .ok d) : steps cfg.maxHyp d i ≤ steps cfg.maxHyp c i - 1 := by
  unfold tick at h
  split at h
  · rename_i hj
    obtain ⟨p, das, hp, hd, h0, h1, rfl⟩ := start_ok h
    have := hypotheses_length hd
    simp only [steps, hj, Function.update_self]
    omega
  · rename_i jb hj
    obtain ⟨n, x, lms, rest, h'⟩ := jb
    cases rest with
    | nil => cases h; simp [steps, hj]
    | cons da rest =>
      obtain ⟨q, cs, o, hq, hcs, ho, rfl⟩ := work_ok h
      simp [steps, hj]

theorem run_steps {cfg : Cfg} {s : Scan X Lm} (i : Nat) : ∀ (σ : List Nat) (c d : Conc X Lm s.nZ), run cfg s σ c = .ok d → steps cfg.maxHyp d i ≤ steps cfg.maxHyp c i - σ.count i := by
  intro σ
  induction σ with
  | nil => intro c d h; cases h; simp
  | cons j σ ih =>
    intro c d h
    obtain ⟨c1, e1, e2⟩ := run_cons.1 h
    have h2 := ih c1 d e2
    by_cases hji : j = i
    · subst hji
      have := tick_steps e1
      rw [List.count_cons_self]
      omega
    · have : steps cfg.maxHyp c1 i = steps cfg.maxHyp c i := by unfold steps; rw [tick_other (fun e => hji e.symm) e1]
      rw [List.count_cons_of_ne hji]
      omega

/-- It is enough that every iteration gets `maxNDataAssocHypotheses_ + 1` steps. -/
theorem whole_of_count {cfg : RCfg} {s : Scan X Lm} {σ : List Nat} {f : Filt X Lm} (hlt : ∀ j ∈ σ, j < f.parts.length) (h : ∀ i < f.parts.length, cfg.cfg.maxHyp + 1 ≤ σ.count i) : Whole cfg s σ f := by
  refine ⟨hlt, fun c hc i hi => ?_⟩
  have h1 := run_steps i σ _ c hc
  have h2 := h i hi
  have h3 : steps cfg.cfg.maxHyp (fresh s.nZ (begun cfg s f)) i = cfg.cfg.maxHyp + 1 := rfl
  have h4 : steps cfg.cfg.maxHyp c i = 0 := by omega
  unfold steps at h4
  cases hj : c.job i with
  | none => rw [hj] at h4; simp at h4
  | some jb => rw [hj] at h4; exact ⟨jb, rfl, List.length_eq_zero_iff.1 h4⟩

/-! ### C204 -/

/-- The places (of `particleSet_` and `landmarkCandidates_`) of iteration `i`: its own particle, and those of its hypotheses once they are made. -/
def Place {nZ : Nat} (c : Conc X Lm nZ) (i k : Nat) : Prop := k = i ∨ ∃ jb, c.job i = some jb ∧ ∃ h < jb.h + jb.rest.length, k = slot i jb.n h

theorem place_cases {N0 nZ : Nat} {c : Conc X Lm nZ} (hs : Safe N0 c) {i k : Nat} (hi : i < N0) (h : Place c i k) : k < c.f.parts.length ∧ (k = i ∨ N0 ≤ k ∧ ∃ jb, c.job i = some jb ∧ ∃ h < jb.h + jb.rest.length, k = slot i jb.n h) := by
  have hl := hs.len
  rcases h with rfl | ⟨jb, hj, h, hh, rfl⟩
  · exact ⟨by omega, Or.inl rfl⟩
  · have o := hs.own i jb hj
    obtain ⟨h1, h2⟩ := own_slot o h hh
    refine ⟨h1, ?_⟩
    rcases h2 with ⟨h2, -⟩ | ⟨h2, -⟩
    · exact Or.inl h2
    · exact Or.inr ⟨h2, jb, hj, h, hh, rfl⟩

theorem places_differ {N0 nZ : Nat} {c : Conc X Lm nZ} (hs : Safe N0 c) {i j k : Nat} (hi : i < N0) (hj : j < N0) (hij : i ≠ j) (h : Place c i k) : ¬ Place c j k := by
  intro h'
  obtain ⟨-, h1⟩ := place_cases hs hi h
  obtain ⟨-, h2⟩ := place_cases hs hj h'
  rcases h1 with rfl | ⟨h1, jb, a1, a, a2, a3⟩
  · rcases h2 with h2 | ⟨h2, -⟩ <;> omega
  · rcases h2 with rfl | ⟨h2, jb', b1, b, b2, b3⟩
    · omega
    · exact safe_ne hs a1 b1 hij a b a2 b2 (a3.symm.trans b3)

/-- **C204**, privacy: at any point of any schedule, the next step of an iteration changes nothing at a place of another iteration - neither particle nor candidates -, and the places of the two stay different. -/
theorem C204_private (cfg : RCfg) (s : Scan X Lm) (σ : List Nat) (f : Filt X Lm) (hlt : ∀ j ∈ σ, j < f.parts.length) (c d : Conc X Lm s.nZ) (hc : run cfg.cfg s σ (fresh s.nZ (begun cfg s f)) = .ok c)
    (i j : Nat) (hi : i < f.parts.length) (hj : j < f.parts.length) (hij : i ≠ j) (hd : tick cfg.cfg s c j = .ok d) (k : Nat) (hk : Place c i k) :
    d.f.parts[k]? = c.f.parts[k]? ∧ d.f.cands[k]? = c.f.cands[k]? ∧ d.job i = c.job i ∧ ¬ Place d j k := by
  have hsafe : ∀ (τ : List Nat) (a b : Conc X Lm s.nZ), (∀ j ∈ τ, j < f.parts.length) → Safe f.parts.length a → run cfg.cfg s τ a = .ok b → Safe f.parts.length b := by
    intro τ
    induction τ with
    | nil => intro a b _ ha hb; cases hb; exact ha
    | cons j τ ih' =>
      intro a b hl ha hb
      obtain ⟨a1, e1, e2⟩ := run_cons.1 hb
      exact ih' a1 b (fun j' hj' => hl j' (List.mem_cons_of_mem _ hj')) (tick_safe (hl j List.mem_cons_self) ha e1) e2
  have hs : Safe f.parts.length c := hsafe σ _ c hlt (fresh_safe s.nZ (begun cfg s f)) hc
  have hsd : Safe f.parts.length d := tick_safe hj hs hd
  have hjob : d.job i = c.job i := tick_other hij hd
  have hkd : Place d i k := by unfold Place; rw [hjob]; exact hk
  have hnot := places_differ hsd hi hj hij hkd
  obtain ⟨hkl, -⟩ := place_cases hs hi hk
  refine ⟨?_, ?_, hjob, hnot⟩ <;>
  · unfold tick at hd
    split at hd
    · obtain ⟨p, das, hp, hdas, h0, h1, rfl⟩ := start_ok hd
      have hnj : k ≠ j := fun e => hnot (Or.inl e)
      first
      | simp only
        rw [List.getElem?_append_left (by rw [List.length_set]; exact hkl), List.getElem?_set_ne (Ne.symm hnj)]
      | simp only
        refine copyCands_other _ _ _ _ _ _ fun h h2 h3 e => hnot (Or.inr ⟨_, Function.update_self _ _ _, h, ?_, e.symm⟩)
        simpa using h3
    · rename_i jb hjb
      obtain ⟨n, x, lms, rest, h'⟩ := jb
      cases rest with
      | nil => cases hd; rfl
      | cons da rest =>
        obtain ⟨q, cs, o, hq, hcs, ho, rfl⟩ := work_ok hd
        have hne : slot j n h' ≠ k := fun e => hnot (Or.inr ⟨_, Function.update_self _ _ _, h', by simp only; omega, e.symm⟩)
        simp only
        rw [List.getElem?_set_ne hne]

/-- **C204**: however the iterations are divided among threads and interleaved, a completed `update` gives exactly what one thread gives when it takes the particles one after the other, in some order. So what C192 to C196 say of
every order they say of every schedule. -/
theorem C204_serial (cfg : RCfg) (s : Scan X Lm) (σ : List Nat) (f f' : Filt X Lm) (hw : Whole cfg s σ f) (h : updateC cfg s σ f = .ok f') :
    ∃ ord, ord.Perm (List.range f.parts.length) ∧ update cfg (ordered s f.parts.length ord) f = .ok f' := by
  unfold updateC at h
  simp only at h
  by_cases hZ : s.nZ = 0
  · rw [if_pos hZ] at h
    refine ⟨List.range f.parts.length, List.Perm.refl _, ?_⟩
    unfold update
    simp only
    rw [if_pos (show (ordered s f.parts.length (List.range f.parts.length)).nZ = 0 from hZ)]
    exact h
  · rw [if_neg hZ] at h
    split at h
    · cases h
    · rename_i c hc
      obtain ⟨ord, o1, o2, o3⟩ := serial (d := c) (hw.done c hc) σ.length σ (fresh s.nZ (begun cfg s f)) le_rfl hw.lt (fresh_safe s.nZ (begun cfg s f)) (fun i jb hj => by simp [fresh] at hj) hc
      refine ⟨ord, ?_, ?_⟩
      · refine (List.perm_ext_iff_of_nodup o1 List.nodup_range).2 fun i => ?_
        rw [o2, List.mem_range]
        simp [fresh]
      · unfold update
        simp only
        rw [if_neg (show (ordered s f.parts.length ord).nZ ≠ 0 from hZ), updateOne_order, show (ordered s f.parts.length ord).order f.parts.length = ord by simp [ordered]]
        change (match List.foldlM (updateOne cfg.cfg s) (begun cfg s f) ord with | Except.error e => Except.error e | Except.ok f1 => resampleMove cfg (ordered s f.parts.length ord) f1) = _
        rw [show ord.foldlM (updateOne cfg.cfg s) (begun cfg s f) = .ok c.f from o3]
        exact h

/-- Every schedule of the calls gets its loop done. -/
def Fair (cfg : RCfg) : List (Cmd X Lm × List Nat) → Filt X Lm → Prop
  | [], _ => True
  | (.predict mx ml, _) :: cs, f => ∀ f', step cfg f (.predict mx ml) = .ok f' → Fair cfg cs f'
  | (.update s, σ) :: cs, f => Whole cfg s σ f ∧ ∀ f', updateC cfg s σ f = .ok f' → Fair cfg cs f'

/-- The same call, but for the order of the particles. -/
def Same (c : Cmd X Lm × List Nat) (c' : Cmd X Lm) : Prop :=
  match c.1 with
  | .predict mx ml => c' = .predict mx ml
  | .update s => ∃ N ord, ord.Perm (List.range N) ∧ c' = .update (ordered s N ord)

/-- **C204**, whole runs: a run with threads gives exactly what some run without threads gives that consists of the same calls. -/
theorem C204_runs (cfg : RCfg) : ∀ (cs : List (Cmd X Lm × List Nat)) (f f' : Filt X Lm), Fair cfg cs f → execC cfg cs f = .ok f' → ∃ cs', List.Forall₂ Same cs cs' ∧ exec cfg cs' f = .ok f' := by
  intro cs
  induction cs with
  | nil => intro f f' _ h; exact ⟨[], List.Forall₂.nil, h⟩
  | cons c cs ih =>
    intro f f' hf h
    obtain ⟨c, σ⟩ := c
    cases c with
    | predict mx ml =>
      unfold execC at h
      split at h
      · cases h
      · rename_i g hg
        obtain ⟨cs', h1, h2⟩ := ih g f' (hf g hg) h
        refine ⟨.predict mx ml :: cs', List.Forall₂.cons rfl h1, ?_⟩
        unfold exec
        rw [hg]
        exact h2
    | update s =>
      unfold execC at h
      split at h
      · cases h
      · rename_i g hg
        obtain ⟨ord, o1, o2⟩ := C204_serial cfg s σ f g hf.1 hg
        obtain ⟨cs', h1, h2⟩ := ih g f' (hf.2 g hg) h
        refine ⟨.update (ordered s f.parts.length ord) :: cs', List.Forall₂.cons ⟨_, ord, o1, rfl⟩ h1, ?_⟩
        unfold exec step
        simp only
        rw [o2]
        exact h2

/-- The draws of the calls. -/
def DrawnC (cs : List (Cmd X Lm × List Nat)) : Prop := ∀ s σ, (Cmd.update s, σ) ∈ cs → 0 ≤ s.r ∧ s.r < 1

theorem drawn_of {cs : List (Cmd X Lm × List Nat)} {cs' : List (Cmd X Lm)} (hd : DrawnC cs) (h : List.Forall₂ Same cs cs') : Drawn cs' := by
  intro s hs
  obtain ⟨k, hk, e⟩ := List.getElem_of_mem hs
  have hk' : k < cs.length := by rw [h.length_eq]; exact hk
  have hsame := (List.forall₂_iff_get.1 h).2 k hk' hk
  simp only [List.get_eq_getElem] at hsame
  rw [e] at hsame
  unfold Same at hsame
  split at hsame
  · cases hsame
  · rename_i s0 hs0
    obtain ⟨N, ord, o1, o2⟩ := hsame
    cases o2
    exact ⟨hd s0 cs[k].2 (by rw [← hs0]; exact List.getElem_mem hk'), fun n => ordered_perm o1 n⟩

/-- **C204**, consequence: number and weights of the particles in every run with threads (C192, C194). -/
theorem C204_number (cfg : RCfg) (n : Nat) (hn : 0 < n) (x0 : X) (b : Bool) (cs : List (Cmd X Lm × List Nat)) (hd : DrawnC cs) (hf : Fair cfg cs (ctor n x0 b)) (f : Filt X Lm) (h : execC cfg cs (ctor n x0 b) = .ok f) :
    n ≤ f.parts.length ∧ f.parts.length ≤ max n cfg.nMax ∧ ∀ p ∈ f.parts, 0 < p.w := by
  obtain ⟨cs', h1, h2⟩ := C204_runs cfg cs _ f hf h
  have hd' := drawn_of hd h1
  obtain ⟨a, b'⟩ := C192_number cfg n hn x0 b cs' hd' f h2
  exact ⟨a, b', (C194_weights cfg n hn x0 b cs' hd' f h2).1⟩

/-- **C204**, definedness (partial, as C193): with any schedule, finished or not, no step of the loop accesses a particle or a list of candidates out of range; only the work on one particle can go wrong. -/
theorem C204_defined_partial (cfg : RCfg) (n : Nat) (s : Scan X Lm) (σ : List Nat) (f : Filt X Lm) (hi : Inv n cfg.nMax f) (hlt : ∀ j ∈ σ, j < f.parts.length) (e : RErr) :
    (run cfg.cfg s σ (fresh s.nZ (begun cfg s f)) = .error e → ∃ e', e = .upd e') ∧ (Whole cfg s σ f → 0 ≤ s.r ∧ s.r < 1 → updateC cfg s σ f = .error e → ∃ e', e = .upd e') := by
  have h1 : run cfg.cfg s σ (fresh s.nZ (begun cfg s f)) = .error e → ∃ e', e = .upd e' :=
    fun h => run_err (N0 := f.parts.length) σ _ hlt (fresh_safe s.nZ (begun cfg s f)) (fresh_room (f := begun cfg s f) (begun_ok hi).1) h
  refine ⟨h1, fun hw hr h => ?_⟩
  unfold updateC at h
  simp only at h
  by_cases hZ : s.nZ = 0
  · rw [if_pos hZ] at h; cases h
  · rw [if_neg hZ] at h
    split at h
    · rename_i e' he
      cases h
      exact h1 he
    · rename_i c hc
      obtain ⟨ord, o1, o2, o3⟩ := serial (d := c) (hw.done c hc) σ.length σ (fresh s.nZ (begun cfg s f)) le_rfl hw.lt (fresh_safe s.nZ (begun cfg s f)) (fun i jb hj => by simp [fresh] at hj) hc
      have op : ord.Perm (List.range f.parts.length) := by
        refine (List.perm_ext_iff_of_nodup o1 List.nodup_range).2 fun i => ?_
        rw [o2, List.mem_range]
        simp [fresh]
      refine update_err (s := ordered s f.parts.length ord) hi ⟨hr, ordered_perm op⟩ e ?_
      unfold update
      simp only
      rw [if_neg (show (ordered s f.parts.length ord).nZ ≠ 0 from hZ), updateOne_order, show (ordered s f.parts.length ord).order f.parts.length = ord by simp [ordered]]
      change (match List.foldlM (updateOne cfg.cfg s) (begun cfg s f) ord with | Except.error e => Except.error e | Except.ok f1 => resampleMove cfg (ordered s f.parts.length ord) f1) = _
      rw [show ord.foldlM (updateOne cfg.cfg s) (begun cfg s f) = .ok c.f from o3]
      exact h

/-- **C204**, converse: every order of the particles is the result of some complete schedule. -/
theorem C204_every_order (cfg : RCfg) (s : Scan X Lm) (f f' : Filt X Lm) (ord : List Nat) (ho : ord.Perm (List.range f.parts.length)) (hZ : s.nZ ≠ 0) (h : update cfg (ordered s f.parts.length ord) f = .ok f') :
    ∃ σ, Whole cfg s σ f ∧ updateC cfg s σ f = .ok f' := by
  unfold update at h
  simp only at h
  rw [if_neg (show (ordered s f.parts.length ord).nZ ≠ 0 from hZ), updateOne_order, show (ordered s f.parts.length ord).order f.parts.length = ord by simp [ordered]] at h
  split at h
  · cases h
  · rename_i f1 hf1
    have hlt : ∀ j, j ∈ ord ↔ j < f.parts.length := fun j => by rw [ho.mem_iff, List.mem_range]
    obtain ⟨σ, d, s1, s2, s3, s4, -⟩ := unserial (N0 := f.parts.length) ord (fresh s.nZ (begun cfg s f)) f1 (ho.nodup_iff.2 List.nodup_range) (fun i hi => (hlt i).1 hi) (fresh_safe s.nZ (begun cfg s f)) (fun _ _ => rfl) hf1
    refine ⟨σ, ⟨s1, fun c hc i hi => ?_⟩, ?_⟩
    · rw [s2] at hc
      cases hc
      exact s4 i ((hlt i).2 hi)
    · unfold updateC
      simp only
      rw [if_neg hZ]
      change (match run cfg.cfg s σ (fresh s.nZ (begun cfg s f)) with | Except.error e => Except.error e | Except.ok c => resampleMove cfg s c.f) = _
      rw [s2]
      simp only
      rw [s3]
      exact h

/-! ### C205 -/

theorem update_split {cfg : RCfg} {s : Scan X Lm} {f f' : Filt X Lm} (hZ : s.nZ ≠ 0) : update cfg s f = .ok f' ↔ ∃ f1, (s.order f.parts.length).foldlM (updateOne cfg.cfg s) (begun cfg s f) = .ok f1 ∧ resampleMove cfg s f1 = .ok f' := by
  unfold update
  simp only
  rw [if_neg hZ]
  change (match List.foldlM (updateOne cfg.cfg s) (begun cfg s f) (s.order f.parts.length) with | Except.error e => Except.error e | Except.ok f1 => resampleMove cfg s f1) = _ ↔ _
  cases (s.order f.parts.length).foldlM (updateOne cfg.cfg s) (begun cfg s f) with
  | error e => simp
  | ok f1 => simp

theorem mid_withCands {cfg : RCfg} {s : Scan X Lm} {f f1 : Filt X Lm} (hm : Mid cfg.cfg s (begun cfg s f) f.parts.length f1) : ∃ outs, List.Forall₂ (Made cfg.cfg s (begun cfg s f)) f.parts.zipIdx outs ∧
    (withCands f1).Perm (List.zipWith results2 f.parts outs).flatten := by
  obtain ⟨A, C, outs, h1, h2, h3, h4, h5⟩ := hm.parts
  have hd : (begun cfg s f).parts.drop f.parts.length = [] := by simp [begun]
  rw [hd, List.append_nil] at h1
  have e1 : (begun cfg s f).parts.take f.parts.length = f.parts := by simp [begun]
  have e2 : (begun cfg s f).parts.zipIdx.take f.parts.length = f.parts.zipIdx := by
    rw [List.take_of_length_le (by simp [begun])]
    rfl
  rw [e1] at h4
  rw [e2] at h3
  refine ⟨outs, h3, ?_⟩
  have e3 : withCands f1 = (A.zipIdx ++ C.zipIdx (begun cfg s f).parts.length).map (view2 f1.cands) := by
    unfold withCands
    rw [h1, List.zipIdx_append, Nat.zero_add, h2]
    rfl
  rw [e3]
  exact h4

theorem forall₂_det {α β : Type} {R : α → β → Prop} (hR : ∀ a b b', R a b → R a b' → b = b') {l : List α} {m m' : List β} (h : List.Forall₂ R l m) (h' : List.Forall₂ R l m') : m = m' := by
  induction h generalizing m' with
  | nil => cases h'; rfl
  | cons a _ ih =>
    cases h' with
    | cons a' h'' => rw [hR _ _ _ a a', ih h'']

theorem withCands_w (f : Filt X Lm) : (withCands f).map (fun a => a.1.2.1) = f.parts.map PF.Part.w := by
  refine List.ext_getElem (by simp [withCands]) fun i i1 i2 => ?_
  simp [withCands]

theorem enough_perm {S : Type} {P Q : List (PF.Part S ℝ)} (h : (P.map PF.Part.w).Perm (Q.map PF.Part.w)) (t tp : ℝ) : PF.enough (PF.normalizeWeights P) t tp ↔ PF.enough (PF.normalizeWeights Q) t tp := by
  have hs : (P.map PF.Part.w).sum = (Q.map PF.Part.w).sum := h.sum_eq
  have hl : P.length = Q.length := by simpa using h.length_eq
  have e : ∀ R : List (PF.Part S ℝ), ((PF.normalizeWeights R).map fun p => p.w * p.w) = (R.map PF.Part.w).map fun w => w / (R.map PF.Part.w).sum * (w / (R.map PF.Part.w).sum) := by
    intro R
    simp [PF.normalizeWeights, List.map_map, Function.comp_def]
  unfold PF.enough
  rw [e, e, PFProps.normalized_length, PFProps.normalized_length, hl, ← hs, (h.map _).sum_eq]

/-- **C205** (partial), orders: if the last scan was followed by a resampling, or the lists of candidates beyond the particles are empty, the order in which the particles are taken does not matter: if `update` succeeds with one order
it does with every other, whether it resamples is the same, and without resampling the particles (pose, weight, map and candidates) are the same up to their places. Missing: lists with old candidates (`C205_violated`); which of the
equal particles a resampling picks depends on their places. -/
theorem C205_orders_partial (cfg : RCfg) (n : Nat) (s : Scan X Lm) (f f1 : Filt X Lm) (hi : Inv n cfg.nMax f) (hr : 0 ≤ s.r ∧ s.r < 1) (ha : f.resampled = true ∨ ∀ k, f.parts.length ≤ k → (f.cands[k]?).getD [] = [])
    (o1 o2 : List Nat) (h1 : o1.Perm (List.range f.parts.length)) (h2 : o2.Perm (List.range f.parts.length)) (h : update cfg (ordered s f.parts.length o1) f = .ok f1) :
    ∃ f2, update cfg (ordered s f.parts.length o2) f = .ok f2 ∧ f2.resampled = f1.resampled ∧ f2.nUpd = f1.nUpd ∧ f2.nMeas = f1.nMeas ∧ (f1.resampled = false → (withCands f2).Perm (withCands f1)) := by
  by_cases hZ : s.nZ = 0
  · have e1 := update_empty (cfg := cfg) (s := ordered s f.parts.length o1) (f := f) hZ
    have e2 := update_empty (cfg := cfg) (s := ordered s f.parts.length o2) (f := f) hZ
    rw [e1] at h
    cases h
    exact ⟨_, e2, rfl, rfl, rfl, fun _ => List.Perm.refl _⟩
  · have ha' : Alike (begun cfg s f) := by
      rcases ha with ha | ha
      · exact Or.inl ha
      · refine Or.inr fun k hk => ?_
        have : ((begun cfg s f).cands[k]?).getD [] = (f.cands[k]?).getD [] := grow_get _ _ _
        rw [this]
        exact ha k hk
    obtain ⟨g1, hg1, hm1⟩ := (update_split (s := ordered s f.parts.length o1) hZ).1 h
    obtain ⟨b1, b2⟩ := begun_ok (cfg := cfg) (s := s) hi
    have hord1 : (ordered s f.parts.length o1).order f.parts.length = o1 := by simp [ordered]
    have hord2 : (ordered s f.parts.length o2).order f.parts.length = o2 := by simp [ordered]
    obtain ⟨m1, l1, l2, w1, n1, c1, i1⟩ := loop_facts (s := ordered s f.parts.length o1) hi (ordered_perm h1) hg1
    rw [updateOne_order, hord1] at hg1
    have mm1 : Mid cfg.cfg s (begun cfg s f) f.parts.length g1 := mid_fold b1 b2 _ h1 g1 hg1
    obtain ⟨outs1, q1, p1⟩ := mid_withCands mm1
    have hmade : ∀ i (hi : i < (begun cfg s f).parts.length), ∃ out, Made cfg.cfg s (begun cfg s f) ((begun cfg s f).parts[i], i) out := by
      intro i hi'
      have hi'' : i < f.parts.length := hi'
      have := (List.forall₂_iff_get.1 q1).2 i (by simpa using hi'') (by rw [← q1.length_eq]; simpa using hi'')
      simp only [List.get_eq_getElem, List.getElem_zipIdx, Nat.zero_add] at this
      exact ⟨_, this⟩
    obtain ⟨g2, hg2⟩ := fold_succeeds b1 b2 ha' hmade o2 (h2.nodup_iff.2 List.nodup_range) (fun j hj => List.mem_range.1 (h2.mem_iff.1 hj))
    have mm2 : Mid cfg.cfg s (begun cfg s f) f.parts.length g2 := mid_fold b1 b2 _ h2 g2 hg2
    obtain ⟨outs2, q2, p2⟩ := mid_withCands mm2
    have hg2' : ((ordered s f.parts.length o2).order f.parts.length).foldlM (updateOne cfg.cfg (ordered s f.parts.length o2)) (begun cfg (ordered s f.parts.length o2) f) = .ok g2 := by
      rw [updateOne_order, hord2]; exact hg2
    obtain ⟨m2, l1', l2', w2, n2, c2, i2⟩ := loop_facts (s := ordered s f.parts.length o2) hi (ordered_perm h2) hg2'
    have hperm : (withCands g2).Perm (withCands g1) := by
      have hout : outs2 = outs1 := forall₂_det (R := Made cfg.cfg s (begun cfg s f)) (fun _ _ _ a b => made_det ha' a b) q2 q1
      rw [hout] at p2
      exact p2.trans p1.symm
    have hwp : (g2.parts.map PF.Part.w).Perm (g1.parts.map PF.Part.w) := by
      rw [← withCands_w, ← withCands_w]
      exact hperm.map _
    have hlen : g2.parts.length = g1.parts.length := by simpa using hwp.length_eq
    obtain ⟨f2, r1, -, r3, r4⟩ := resampleMove_spec (cfg := cfg) (s := ordered s f.parts.length o2) hr hi.pos n2 (hi.lo.trans l1') c2 i2 w2
    obtain ⟨f1', r1', -, r3', r4'⟩ := resampleMove_spec (cfg := cfg) (s := ordered s f.parts.length o1) hr hi.pos n1 (hi.lo.trans l1) c1 i1 w1
    have hff : f1' = f1 := Except.ok.inj (r1'.symm.trans hm1)
    subst hff
    have hres : f2.resampled = f1'.resampled := by
      rw [Bool.eq_iff_iff, resampled_iff r1, resampled_iff r1', hlen, mm1.nU, mm2.nU, mm1.nM, mm2.nM, enough_perm hwp]
      rfl
    refine ⟨f2, (update_split (s := ordered s f.parts.length o2) hZ).2 ⟨g2, hg2', r1⟩, hres, ?_, ?_, fun hf => ?_⟩
    · cases hb : f1'.resampled with
      | true => rw [(r4 (hres.trans hb)).2.1, (r4' hb).2.1]
      | false => rw [(r3 (hres.trans hb)).2.1, (r3' hb).2.1, mm1.nU, mm2.nU]
    · cases hb : f1'.resampled with
      | true => rw [(r4 (hres.trans hb)).2.2.1, (r4' hb).2.2.1]
      | false => rw [(r3 (hres.trans hb)).2.2.1, (r3' hb).2.2.1, mm1.nM, mm2.nM]
    · have key : ∀ g f' : Filt X Lm, f'.parts.length = g.parts.length → f'.cands = g.cands → f'.parts.map view = (g.parts.map fun p => (p.st.x, p.w / (g.parts.map PF.Part.w).sum, p.st.map)) →
          withCands f' = (withCands g).map fun a => ((a.1.1, a.1.2.1 / (g.parts.map PF.Part.w).sum, a.1.2.2), a.2) := by
        intro g f' e0 ec e
        refine List.ext_getElem (by simp [withCands, e0]) fun i i1 i2 => ?_
        have i3 : i < f'.parts.length := by simpa [withCands] using i1
        have i4 : i < g.parts.length := by omega
        have hv : (f'.parts.map view)[i]'(by simpa using i3) = (g.parts.map fun p => (p.st.x, p.w / (g.parts.map PF.Part.w).sum, p.st.map))[i]'(by simpa using i4) := by simp only [e]
        simp only [List.getElem_map, view] at hv
        simp only [withCands, List.getElem_map, List.getElem_zipIdx, Nat.zero_add, ec, hv]
      obtain ⟨a1, -, -, a4, -, a6⟩ := r3 (hres.trans hf)
      obtain ⟨b1, -, -, b4, -, b6⟩ := r3' hf
      rw [key g2 f2 a1 a4 a6, key g1 f1' b1 b4 b6, hwp.sum_eq]
      exact hperm.map _

/-- **C205** (partial), schedules: under the same condition any two schedules that complete the loop give the same particles up to their places. -/
theorem C205_schedules_partial (cfg : RCfg) (n : Nat) (s : Scan X Lm) (f f1 f2 : Filt X Lm) (hi : Inv n cfg.nMax f) (hr : 0 ≤ s.r ∧ s.r < 1) (ha : f.resampled = true ∨ ∀ k, f.parts.length ≤ k → (f.cands[k]?).getD [] = [])
    (σ1 σ2 : List Nat) (w1 : Whole cfg s σ1 f) (w2 : Whole cfg s σ2 f) (h1 : updateC cfg s σ1 f = .ok f1) (h2 : updateC cfg s σ2 f = .ok f2) :
    f2.resampled = f1.resampled ∧ f2.nUpd = f1.nUpd ∧ f2.nMeas = f1.nMeas ∧ (f1.resampled = false → (withCands f2).Perm (withCands f1)) := by
  obtain ⟨o1, p1, e1⟩ := C204_serial cfg s σ1 f f1 w1 h1
  obtain ⟨o2, p2, e2⟩ := C204_serial cfg s σ2 f f2 w2 h2
  obtain ⟨f2', e3, r⟩ := C205_orders_partial cfg n s f f1 hi hr ha o1 o2 p1 p2 e1
  rw [e2] at e3
  cases e3
  exact r

/-- The lists of candidates beyond the particles are empty. -/
def Clean (f : Filt X Lm) : Prop := ∀ k, f.parts.length ≤ k → (f.cands[k]?).getD [] = []

theorem update_clean {cfg : RCfg} {n : Nat} {s : Scan X Lm} {f f' : Filt X Lm} (hi : Inv n cfg.nMax f) (hr : (0 ≤ s.r ∧ s.r < 1) ∧ ∀ n, (s.order n).Perm (List.range n)) (hc : Clean f) (h : update cfg s f = .ok f')
    (hn : f'.resampled = false) : Clean f' := by
  by_cases hZ : s.nZ = 0
  · rw [update_empty hZ] at h
    cases h
    intro k hk
    exact (grow_get _ _ _).trans (hc k hk)
  · obtain ⟨f1, h1, h2⟩ := (update_split hZ).1 h
    obtain ⟨b1, b2⟩ := begun_ok (cfg := cfg) (s := s) hi
    have hm := mid_foldO b1 b2 (s.order f.parts.length) ((hr.2 _).nodup_iff.2 List.nodup_range) (fun j hj => List.mem_range.1 ((hr.2 _).mem_iff.1 hj)) f1 h1
    obtain ⟨-, l1, -, w1, n1, c1, i1⟩ := loop_facts hi hr.2 h1
    obtain ⟨f1', r1, -, r3, -⟩ := resampleMove_spec (cfg := cfg) (s := s) hr.1 hi.pos n1 (hi.lo.trans l1) c1 i1 w1
    have : f1' = f' := Except.ok.inj (r1.symm.trans h2)
    subst this
    obtain ⟨a1, -, -, a4, -⟩ := r3 hn
    intro k hk
    rw [a4, hm.free k (by omega)]
    exact (grow_get _ _ _).trans (hc k (by omega))

/-- **C205** (partial), runs: the condition holds in every run until the first resampling, and after every scan that is followed by a resampling. -/
theorem C205_condition_partial (cfg : RCfg) (n : Nat) (hn : 0 < n) (x0 : X) (b : Bool) (cs : List (Cmd X Lm)) (hd : Drawn cs) (f : Filt X Lm) (h : exec cfg cs (ctor n x0 b) = .ok f)
    (hno : f.resampled = true ∨ ∀ ds es, cs = ds ++ es → ds ≠ [] → ∀ g, exec cfg ds (ctor n x0 b) = .ok g → g.resampled = false) : f.resampled = true ∨ ∀ k, f.parts.length ≤ k → (f.cands[k]?).getD [] = [] := by
  rcases hno with hno | hno
  · exact Or.inl hno
  · refine Or.inr ?_
    change Clean f
    revert f
    induction cs using List.reverseRecOn with
    | nil =>
      intro f h
      cases h
      intro k hk
      simp only [ctor]
      rw [show (ctor n x0 b : Filt X Lm).parts.length = n by simp [ctor, PF.addParticles]] at hk
      cases hg : (List.replicate n ([] : List (Cand Lm)))[k]? with
      | none => rfl
      | some c => exact (List.mem_replicate.1 (List.mem_of_getElem? hg)).2
    | append_singleton cs c ih =>
      intro f h
      obtain ⟨g, h1, h2⟩ := exec_append _ _ _ _ h
      have hd' : Drawn cs := fun s hs => hd s (by simp [hs])
      have hcg : Clean g := ih hd' (fun ds es e hds => hno ds (es ++ [c]) (by rw [e, List.append_assoc]) hds) g h1
      have hi := exec_inv cs _ _ hd' (ctor_inv hn cfg.nMax x0 b) h1
      have hstep := exec_one h2
      cases c with
      | predict mx ml =>
        cases hstep
        intro k hk
        exact hcg k (by simpa using hk)
      | update s => exact update_clean hi (hd s (by simp)) hcg hstep (hno (cs ++ [.update s]) [] (by simp) (by simp) f h)

theorem putParts_x (i n : Nat) (out : List (Particle Lm × List (Cand Lm))) (P : List (PF.Part (PState X Lm) ℝ)) : (putParts i n out P).map (fun p => p.st.x) = P.map fun p => p.st.x := by
  unfold putParts
  generalize out.zipIdx = l
  induction l generalizing P with
  | nil => rfl
  | cons a l ih =>
    rw [List.foldl_cons, ih]
    refine List.ext_getElem (by simp) fun k k1 k2 => ?_
    simp only [List.getElem_map, List.getElem_modify]
    split <;> rfl

theorem putParts_other (i n : Nat) (out : List (Particle Lm × List (Cand Lm))) (P : List (PF.Part (PState X Lm) ℝ)) (j : Nat) (hj : ∀ h < out.length, slot i n h ≠ j) : (putParts i n out P)[j]? = P[j]? := by
  unfold putParts
  have hj' : ∀ o ∈ out.zipIdx, slot i n o.2 ≠ j := by
    intro o ho
    obtain ⟨h1, -⟩ := List.getElem?_eq_some_iff.1 (List.mem_zipIdx_iff_getElem?.1 ho)
    exact hj _ h1
  generalize out.zipIdx = l at hj'
  induction l generalizing P with
  | nil => rfl
  | cons a l ih =>
    rw [List.foldl_cons, ih _ fun o ho => hj' o (List.mem_cons_of_mem _ ho), List.getElem?_modify_ne _ _ (hj' a List.mem_cons_self)]

theorem updateOne_of {cfg : Cfg} {s : Scan X Lm} {f : Filt X Lm} {i : Nat} {p das out} (hp : f.parts[i]? = some p) (hd : hypotheses cfg s.nZ s.murty (table (s.env p.st.x) cfg (inRange (s.env p.st.x) p.st.map)) = .ok das)
    (hb : ∀ h < das.length, slot i (f.parts.length + (das.length - 1)) h < f.cands.length)
    (hu : updateMap (s.env p.st.x) cfg s.murty s.prune f.resampled ⟨p.w, p.st.map⟩ (fun h => (f.cands[slot i (f.parts.length + (das.length - 1)) h]?).getD []) = .ok out) :
    updateOne cfg s f i = .ok { f with parts := putParts i (f.parts.length + (das.length - 1)) out (f.parts.set i (share p das.length) ++ copies p das.length f.parts.length), cands := putCands i (f.parts.length + (das.length - 1)) out f.cands } := by
  unfold updateOne
  rw [hp]
  simp only
  rw [hd]
  simp only
  rw [if_neg (by
    rintro ⟨h, hh, hc⟩
    have := hb h hh
    omega), hu]
  simp only
  rw [split_eq _ _ _ _ hp]

/-- Two measurements, two landmarks, two hypotheses for every particle. -/
noncomputable def twoScan : Scan Bool Unit := ⟨2, fun _ => twoEnv, twoMurty, id, 0, 0, 0, List.range⟩

theorem two_one (f : Filt Bool Unit) (i : Nat) (p : PF.Part (PState Bool Unit) ℝ) (hp : f.parts[i]? = some p) (hm : p.st.map = [((), 0), ((), 0)]) (hc : f.parts.length < f.cands.length) (hr : f.resampled = false) :
    ∃ f', updateOne (twoCfg 3) twoScan f i = .ok f' ∧ f'.cands = f.cands ∧ f'.resampled = false ∧ f'.nUpd = f.nUpd ∧ f'.parts.map (fun p => p.st.x) = f.parts.map (fun p => p.st.x) ++ [p.st.x] ∧
      ∀ j < f.parts.length, j ≠ i → f'.parts[j]? = f.parts[j]? := by
  obtain ⟨hi, -⟩ := List.getElem?_eq_some_iff.1 hp
  obtain ⟨das, h1, h2, h3⟩ := two_hyp 3 ⟨p.w, p.st.map⟩ (by rw [hm]; rfl)
  obtain ⟨out, h4, h5⟩ := cands_kept twoEnv (twoCfg 3) (two_ok 3) twoMurty id f.resampled ⟨p.w, p.st.map⟩ (fun h => (f.cands[slot i (f.parts.length + (das.length - 1)) h]?).getD []) das h1 (by intro e; rw [e] at h2; simp at h2) h3
  have hol : out.length = 2 := by
    have := congrArg List.length h5
    simpa [h2] using this
  have hsl : ∀ h < 2, slot i (f.parts.length + (das.length - 1)) h < f.cands.length := by
    intro h hh
    unfold slot
    split <;> omega
  refine ⟨{ f with parts := putParts i (f.parts.length + (das.length - 1)) out (f.parts.set i (share p das.length) ++ copies p das.length f.parts.length), cands := putCands i (f.parts.length + (das.length - 1)) out f.cands }, ?_, ?_, hr, rfl, ?_, ?_⟩
  · exact updateOne_of (s := twoScan) (das := das) hp h1 (fun h hh => hsl h (lt_of_lt_of_eq hh h2)) h4
  · simp only
    refine List.ext_getElem? fun k => ?_
    by_cases hk : ∃ h < out.length, slot i (f.parts.length + (das.length - 1)) h = k
    · obtain ⟨h, hh, rfl⟩ := hk
      rw [putCands_at _ _ _ _ (by omega) (by omega) h hh]
      have e : (out.map Prod.snd)[h]? = some out[h].2 := by simp [hh]
      rw [h5, hr] at e
      have hh' : h < das.length := by omega
      simp only [Bool.false_eq_true, or_false, List.getElem?_map, List.getElem?_range hh', Option.map_some, Option.some.injEq] at e
      rw [← e]
      have := hsl h (by omega)
      split
      · rename_i e0
        rw [e0]
        rw [e0] at this
        rw [List.getElem?_eq_getElem this]; rfl
      · rw [List.getElem?_eq_getElem this]; rfl
    · push Not at hk
      exact putCands_other _ _ _ _ _ hk
  · simp only
    rw [putParts_x, List.map_append, List.map_set]
    congr 1
    · refine List.ext_getElem (by simp) fun k k1 k2 => ?_
      rw [List.getElem_set]
      split
      · rename_i e
        subst e
        have := (List.getElem?_eq_some_iff.1 hp).2
        simp [share, this]
      · rfl
    · rw [h2]
      simp [copies, share]
  · intro j hj hji
    simp only
    rw [putParts_other, List.getElem?_append_left (by rw [List.length_set]; exact hj), List.getElem?_set_ne (Ne.symm hji)]
    intro h hh
    unfold slot
    split <;> omega

/-- Poses with candidates. -/
theorem withCands_x (f : Filt X Lm) : (withCands f).map (fun a => (a.1.1, a.2)) = (f.parts.map fun p => p.st.x).zipIdx.map fun q => (q.1, (f.cands[q.2]?).getD []) := by
  refine List.ext_getElem (by simp [withCands]) fun i i1 i2 => ?_
  simp [withCands]

/-- Two particles with different poses, and a candidate left in a list beyond them. -/
noncomputable def staleFilt (c : List (Cand Unit)) : Filt Bool Unit := ⟨[⟨⟨false, [((), 0), ((), 0)]⟩, 0, 0, 1⟩, ⟨⟨true, [((), 0), ((), 0)]⟩, 1, 1, 1⟩], [[], [], c, []], false, 0, 0, 2⟩

noncomputable def staleCfg : RCfg := ⟨twoCfg 3, 100, 100, 100⟩

theorem stale_order (c : List (Cand Unit)) (i j : Nat) (hij : i = 0 ∧ j = 1 ∨ i = 1 ∧ j = 0) : ∃ f', update staleCfg (ordered twoScan 2 [i, j]) (staleFilt c) = .ok f' ∧ f'.resampled = false ∧
    (withCands f').map (fun a => (a.1.1, a.2)) = [(false, []), (true, []), (decide (i = 1), c), (decide (j = 1), [])] := by
  have hb : ∀ k < 2, ∃ p, (begun staleCfg twoScan (staleFilt c)).parts[k]? = some p ∧ p.st.map = [((), 0), ((), 0)] ∧ p.st.x = decide (k = 1) := by
    intro k hk
    obtain rfl | rfl : k = 0 ∨ k = 1 := by omega
    · exact ⟨_, rfl, rfl, rfl⟩
    · exact ⟨_, rfl, rfl, rfl⟩
  have hcb : (begun staleCfg twoScan (staleFilt c)).cands = [[], [], c, []] := by simp [begun, staleFilt, staleCfg, twoCfg, grow]
  have hlb : (begun staleCfg twoScan (staleFilt c)).parts.length = 2 := rfl
  obtain ⟨p, hp, hpm, hpx⟩ := hb i (by omega)
  obtain ⟨p', hp', hpm', hpx'⟩ := hb j (by omega)
  obtain ⟨f1, a1, a2, a3, a4, a5, a6⟩ := two_one (begun staleCfg twoScan (staleFilt c)) i p hp hpm (by rw [hcb, hlb]; simp) rfl
  have hl1 : f1.parts.length = 3 := by
    have := congrArg List.length a5
    simpa [hlb] using this
  obtain ⟨f2, b1, b2, b3, b4, b5, -⟩ := two_one f1 j p' (by rw [a6 j (by rw [hlb]; omega) (by omega)]; exact hp') hpm' (by rw [a2, hcb, hl1]; simp) a3
  have hl2 : f2.parts.length = 4 := by
    have := congrArg List.length b5
    simpa [hl1] using this
  have hdue : ¬ (staleCfg.nMax < f2.parts.length ∨ (staleCfg.minUpd ≤ f2.nUpd ∧ staleCfg.minMeas ≤ f2.nMeas)) := by
    rw [hl2, b4, a4]
    simp [staleCfg, begun, staleFilt]
  refine ⟨{ f2 with parts := PF.normalizeWeights f2.parts, resampled := false }, (update_split (s := ordered twoScan 2 [i, j]) (by simp [ordered, twoScan])).2 ⟨f2, ?_, ?_⟩, rfl, ?_⟩
  · rw [updateOne_order, show (ordered twoScan 2 [i, j]).order (staleFilt c).parts.length = [i, j] from rfl, List.foldlM_cons]
    change (updateOne (twoCfg 3) twoScan (begun staleCfg twoScan (staleFilt c)) i >>= fun g => List.foldlM (updateOne (twoCfg 3) twoScan) g [j]) = _
    rw [a1]
    change List.foldlM (updateOne (twoCfg 3) twoScan) f1 [j] = _
    rw [List.foldlM_cons, b1]
    rfl
  · unfold resampleMove
    simp only
    rw [if_neg hdue]
  · rw [withCands_x]
    simp only
    rw [show (PF.normalizeWeights f2.parts).map (fun p => p.st.x) = f2.parts.map fun p => p.st.x by simp [PF.normalizeWeights], b5, a5, b2, a2, hcb, hpx, hpx']
    simp [begun, staleFilt]

theorem stale_inv (c : List (Cand Unit)) : Inv 2 staleCfg.nMax (staleFilt c) := by
  refine ⟨rfl, by omega, by simp [staleFilt], by simp [staleFilt], by simp [staleFilt], ?_, ?_⟩
  · intro p hp
    simp only [staleFilt, List.mem_cons, List.not_mem_nil, or_false] at hp
    rcases hp with rfl | rfl <;> simp [staleFilt]
  · intro p hp
    simp only [staleFilt, List.mem_cons, List.not_mem_nil, or_false] at hp
    rcases hp with rfl | rfl <;> simp

/-- **C205** fails: the copy of a particle starts with the candidates an earlier scan has left at its place, and the place depends on which thread comes first. Here one order leaves the pose `false` with the old candidate, the other
the pose `true`; both are results of complete schedules. -/
theorem C205_violated : ∃ (f f1 f2 : Filt Bool Unit), Inv 2 staleCfg.nMax f ∧ (∃ σ, Whole staleCfg twoScan σ f ∧ updateC staleCfg twoScan σ f = .ok f1) ∧
    (∃ σ, Whole staleCfg twoScan σ f ∧ updateC staleCfg twoScan σ f = .ok f2) ∧ f1.resampled = false ∧ f2.resampled = false ∧ ¬ (withCands f1).Perm (withCands f2) := by
  obtain ⟨f1, a1, a2, a3⟩ := stale_order [⟨(), 1, 0⟩] 0 1 (Or.inl ⟨rfl, rfl⟩)
  obtain ⟨f2, b1, b2, b3⟩ := stale_order [⟨(), 1, 0⟩] 1 0 (Or.inr ⟨rfl, rfl⟩)
  refine ⟨staleFilt [⟨(), 1, 0⟩], f1, f2, stale_inv _, C204_every_order staleCfg twoScan (staleFilt [⟨(), 1, 0⟩]) f1 [0, 1] (List.Perm.refl _) (by simp [twoScan]) a1,
    C204_every_order staleCfg twoScan (staleFilt [⟨(), 1, 0⟩]) f2 [1, 0] (List.Perm.swap 0 1 []) (by simp [twoScan]) b1, a2, b2, fun hp => ?_⟩
  have := hp.map fun a => (a.1.1, a.2)
  rw [a3, b3] at this
  have hm : ((false, [⟨(), 1, 0⟩]) : Bool × List (Cand Unit)) ∈ [(false, []), (true, []), (decide ((1 : Nat) = 1), [⟨(), 1, 0⟩]), (decide ((0 : Nat) = 1), [])] := this.mem_iff.1 (by simp)
  simp at hm

/-! Not vacuous: a schedule that changes between the two particles above completes the loop; without old candidate C205 applies to the same filter; new filters meet its condition. -/
example : Whole staleCfg twoScan [0, 1, 1, 0, 0, 1] (staleFilt [⟨(), 1, 0⟩]) := by
  refine whole_of_count (by intro j hj; simp only [List.mem_cons, List.not_mem_nil, or_false] at hj; change j < 2; omega) fun i hi => ?_
  have : i = 0 ∨ i = 1 := by
    have : i < 2 := hi
    omega
  rcases this with rfl | rfl <;> simp [staleCfg, twoCfg]

example : ∃ f1, update staleCfg (ordered twoScan 2 [0, 1]) (staleFilt []) = .ok f1 ∧ (∀ k, (staleFilt []).parts.length ≤ k → ((staleFilt []).cands[k]?).getD [] = []) ∧ Inv 2 staleCfg.nMax (staleFilt []) := by
  obtain ⟨f1, a1, -⟩ := stale_order [] 0 1 (Or.inl ⟨rfl, rfl⟩)
  refine ⟨f1, a1, fun k hk => ?_, stale_inv []⟩
  have hk : 2 ≤ k := hk
  match k with
  | 2 => rfl
  | 3 => rfl
  | k + 4 => simp [staleFilt]

example : Fair staleCfg [(.predict (fun _ x => x) id, []), (.update twoScan, [0, 1, 1, 0, 0, 1])] (ctor 2 true false : Filt Bool Unit) := by
  intro f' hf
  cases hf
  refine ⟨whole_of_count (by intro j hj; simp only [List.mem_cons, List.not_mem_nil, or_false] at hj; simp only [List.length_map, List.length_zipIdx]; change j < 2; omega) fun i hi => ?_, fun _ _ => trivial⟩
  simp only [List.length_map, List.length_zipIdx] at hi
  have : i = 0 ∨ i = 1 := by
    have : i < 2 := hi
    omega
  rcases this with rfl | rfl <;> simp [staleCfg, twoCfg]

end FastThreadsProps
end RFS
