import Verif.Model.FastRuns
import Verif.Props.FastSLAM
import Verif.Lemmas.LMBRuns

set_option linter.unusedSectionVars false

namespace RFS
namespace FastRuns
open FastSLAM
open Hungarian (Mat)

variable {X Lm : Type}

/-- Pose, weight and map of a particle. -/
def view (p : PF.Part (PState X Lm) ℝ) : X × ℝ × List (Lm × ℝ) := (p.st.x, p.w, p.st.map)

/-- What is written to the particle of a hypothesis. -/
def put (q : PF.Part (PState X Lm) ℝ) (o : Particle Lm × List (Cand Lm)) : PF.Part (PState X Lm) ℝ := { q with st := ⟨q.st.x, o.1.map⟩, w := o.1.w }

theorem modify_append {α : Type*} (g : α → α) (A R : List α) (q : α) : (A ++ q :: R).modify A.length g = A ++ g q :: R := by
  induction A with
  | nil => simp
  | cons a A ih => simpa using ih

theorem put_tail (i n : Nat) : ∀ (os : List (Particle Lm × List (Cand Lm))) (k : Nat) (Pre E Dn : List (PF.Part (PState X Lm) ℝ)), E.length = os.length → n = Pre.length + E.length + Dn.length → k = Dn.length + 1 →
    (os.zipIdx k).foldl (fun P o => P.modify (slot i n o.2) fun q => put q o.1) (Pre ++ E.reverse ++ Dn) = Pre ++ (List.zipWith put E os).reverse ++ Dn := by
  intro os
  induction os with
  | nil =>
    intro k Pre E Dn hE _ _
    have : E = [] := List.length_eq_zero_iff.1 hE
    subst this
    rfl
  | cons o os ih =>
    intro k Pre E Dn hE hn hk
    cases E with
    | nil => simp at hE
    | cons e E =>
      have hE' : E.length = os.length := by simpa using hE
      rw [List.zipIdx_cons, List.foldl_cons]
      have hs : slot i n k = (Pre ++ E.reverse).length := by
        unfold slot
        rw [if_neg (by omega)]
        simp only [List.length_append, List.length_reverse, List.length_cons] at hn ⊢
        omega
      have e1 : Pre ++ (e :: E).reverse ++ Dn = (Pre ++ E.reverse) ++ e :: Dn := by simp
      simp only
      rw [e1, hs, modify_append]
      have e2 : Pre ++ E.reverse ++ put e o :: Dn = Pre ++ E.reverse ++ (put e o :: Dn) := rfl
      rw [ih (k + 1) Pre E (put e o :: Dn) hE' (by simp only [List.length_cons] at hn ⊢; omega) (by simp; omega)]
      simp

/-- Where the results go: the first stays in its place, the others replace the copies, the last of them first. -/
theorem putParts_eq (o : Particle Lm × List (Cand Lm)) (os : List (Particle Lm × List (Cand Lm))) (A R E : List (PF.Part (PState X Lm) ℝ)) (q : PF.Part (PState X Lm) ℝ) (hE : E.length = os.length) :
    putParts A.length (A.length + 1 + R.length + E.length) (o :: os) (A ++ q :: R ++ E.reverse) = A ++ put q o :: R ++ (List.zipWith put E os).reverse := by
  unfold putParts
  rw [List.zipIdx_cons, List.foldl_cons]
  have e1 : slot A.length (A.length + 1 + R.length + E.length) 0 = A.length := rfl
  simp only [e1]
  have e2 : A ++ q :: R ++ E.reverse = A ++ q :: (R ++ E.reverse) := by simp
  rw [e2, modify_append]
  have := put_tail A.length (A.length + 1 + R.length + E.length) os 1 (A ++ put q o :: R) E [] hE (by simp; omega) rfl
  simp only [List.append_nil] at this
  rw [show A ++ ({ q with st := ⟨q.st.x, o.1.map⟩, w := o.1.w } : PF.Part (PState X Lm) ℝ) :: (R ++ E.reverse) = A ++ put q o :: R ++ E.reverse by simp [put]]
  exact this

theorem putCands_length (i n : Nat) (out : List (Particle Lm × List (Cand Lm))) (C : List (List (Cand Lm))) : (putCands i n out C).length = C.length := by
  unfold putCands
  generalize out.zipIdx = l
  induction l generalizing C with
  | nil => rfl
  | cons a l ih => rw [List.foldl_cons, ih, List.length_set]

/-- Candidates of other particles are not touched. -/
theorem putCands_other (i n : Nat) (out : List (Particle Lm × List (Cand Lm))) (C : List (List (Cand Lm))) (j : Nat) (hj : ∀ h < out.length, slot i n h ≠ j) : (putCands i n out C)[j]? = C[j]? := by
  unfold putCands
  have hj' : ∀ o ∈ out.zipIdx, slot i n o.2 ≠ j := by
    intro o ho
    obtain ⟨h1, -⟩ := List.getElem?_eq_some_iff.1 (List.mem_zipIdx_iff_getElem?.1 ho)
    exact hj _ h1
  generalize out.zipIdx = l at hj'
  induction l generalizing C with
  | nil => rfl
  | cons a l ih =>
    rw [List.foldl_cons, ih _ fun o ho => hj' o (List.mem_cons_of_mem _ ho), List.getElem?_set_ne (hj' a List.mem_cons_self)]

/-- Setting the places of a list of pairwise different indices. -/
theorem foldl_set_other {α β : Type*} (g : α → Nat) (v : α → β) (l : List α) (C : List β) (j : Nat) (hj : ∀ a ∈ l, g a ≠ j) : (l.foldl (fun C a => C.set (g a) (v a)) C)[j]? = C[j]? := by
  induction l generalizing C with
  | nil => rfl
  | cons a l ih => rw [List.foldl_cons, ih _ fun b hb => hj b (List.mem_cons_of_mem _ hb), List.getElem?_set_ne (hj a List.mem_cons_self)]

theorem foldl_set_at {α β : Type*} (g : α → Nat) (v : α → β) (l : List α) (C : List β) (hnd : (l.map g).Nodup) (hr : ∀ a ∈ l, g a < C.length) (a : α) (ha : a ∈ l) :
    (l.foldl (fun C a => C.set (g a) (v a)) C)[g a]? = some (v a) := by
  induction l generalizing C with
  | nil => simp at ha
  | cons b l ih =>
    rw [List.map_cons, List.nodup_cons] at hnd
    rw [List.foldl_cons]
    rcases List.mem_cons.1 ha with rfl | ha
    · rw [foldl_set_other g v l _ _ fun c hc e => hnd.1 (by rw [← e]; exact List.mem_map_of_mem hc), List.getElem?_set_self (hr _ List.mem_cons_self)]
    · exact ih _ hnd.2 (fun c hc => by rw [List.length_set]; exact hr c (List.mem_cons_of_mem _ hc)) ha

/-- The candidates of every hypothesis are at the place of its particle. -/
theorem putCands_at (i n : Nat) (out : List (Particle Lm × List (Cand Lm))) (C : List (List (Cand Lm))) (hi : i + out.length ≤ n) (hC : n ≤ C.length) (h : Nat) (hh : h < out.length) :
    (putCands i n out C)[slot i n h]? = some out[h].2 := by
  have hnd : (out.zipIdx.map fun o => slot i n o.2).Nodup := by
    rw [List.nodup_iff_injective_getElem]
    rintro ⟨a, ha⟩ ⟨b, hb⟩ hab
    simp only [List.length_map, List.length_zipIdx] at ha hb
    simp only [List.getElem_map, List.getElem_zipIdx, Nat.zero_add, slot] at hab
    apply Fin.ext
    simp only
    split at hab <;> split at hab <;> omega
  have := foldl_set_at (fun o : (Particle Lm × List (Cand Lm)) × Nat => slot i n o.2) (fun o => o.1.2) out.zipIdx C hnd ?_ (out[h], h) (List.mem_zipIdx_iff_getElem?.2 (List.getElem?_eq_getElem hh))
  · exact this
  · intro a ha
    have := (List.getElem?_eq_some_iff.1 (List.mem_zipIdx_iff_getElem?.1 ha)).1
    simp only [slot]
    split <;> omega

/-- The copies. -/
theorem copyParticle_eq (A R : List (PF.Part (PState X Lm) ℝ)) (q : PF.Part (PState X Lm) ℝ) (k : Nat) (w : ℝ) : ∃ (q' : PF.Part (PState X Lm) ℝ) (E : List (PF.Part (PState X Lm) ℝ)),
    PF.copyParticle (A ++ q :: R) A.length k w = some (A ++ q' :: R ++ E.reverse) ∧ E.length = k ∧ q'.st = q.st ∧ q'.id = q.id ∧ q'.parent = q.parent ∧
      ∀ e ∈ E, e.st = q.st ∧ e.parent = q.parent ∧ e.id < A.length + 1 + R.length + k := by
  refine ⟨{ q with w := if w < 0 then q.w else w },
    ((List.range k).map fun i => ({ q with w := if w < 0 then q.w else w, id := (A ++ q :: R).length + i } : PF.Part (PState X Lm) ℝ)).reverse, ?_, by simp, rfl, rfl, rfl, ?_⟩
  · unfold PF.copyParticle
    rw [show (A ++ q :: R)[A.length]? = some q by simp]
    simp only [List.reverse_reverse]
    congr 2
    rw [List.set_append_right _ _ (le_refl _)]
    simp
  · intro e he
    simp only [List.mem_reverse, List.mem_map, List.mem_range] at he
    obtain ⟨i, hi, rfl⟩ := he
    refine ⟨rfl, rfl, ?_⟩
    simp only [List.length_append, List.length_cons]
    omega

theorem hypUpdate_weight {nZ : Nat} {env : Env Lm nZ} {cfg : Cfg} {prune : List (Lm × ℝ) → List (Lm × ℝ)} {lms : List (Nat × Lm × ℝ)} {da : Fin (max lms.length nZ) → Option (Fin nZ)} {p : Particle Lm}
    {cands : List (Cand Lm)} {o : Particle Lm × List (Cand Lm)} (h : hypUpdate env cfg prune lms da p cands = .ok o) (hp : 0 < p.w) : 0 < o.1.w := by
  unfold hypUpdate at h
  cases h1 : lmLoop env cfg lms da p.map with
  | error e => rw [h1] at h; cases h
  | ok s =>
    rw [h1, bind_ok] at h
    cases h2 : newWeight cfg with
    | error e => rw [h2] at h; cases h
    | ok nw =>
      rw [h2, bind_ok] at h
      revert h
      generalize List.foldlM (m := Except Err) _ _ _ = x
      intro h
      cases x with
      | error e => cases h
      | ok r =>
        cases h
        exact mul_pos hp (Real.exp_pos _)

/-- What a completed `updateMap` says. -/
theorem updateMap_facts {nZ : Nat} {env : Env Lm nZ} {cfg : Cfg} {murty : ∀ m, Mat ℝ m → List ((Fin m → Fin m) × ℝ)} {prune : List (Lm × ℝ) → List (Lm × ℝ)} {resampled : Bool} {p : Particle Lm}
    {cands : Nat → List (Cand Lm)} {das} (hd : hypotheses cfg nZ murty (table env cfg (inRange env p.map)) = .ok das) {out} (h : updateMap env cfg murty prune resampled p cands = .ok out) :
    das ≠ [] ∧ out.length = das.length ∧ ∀ o ∈ out, ∃ w da c, (0 < p.w → 0 < w) ∧ hypUpdate env cfg prune (inRange env p.map) da ⟨w, p.map⟩ c = .ok o := by
  unfold updateMap at h
  rw [hd, bind_ok] at h
  by_cases h0 : das.length = 0
  · rw [if_pos h0] at h; cases h
  · rw [if_neg h0, mapM_ok] at h
    refine ⟨fun e => h0 (by rw [e]; rfl), by rw [← h.length_eq]; simp, ?_⟩
    intro o ho
    obtain ⟨i, hi, rfl⟩ := List.getElem_of_mem ho
    have := (List.forall₂_iff_get.1 h).2 i (by rw [h.length_eq]; exact hi) hi
    refine ⟨_, _, _, fun hp => ?_, this⟩
    split
    · have : (0 : ℝ) < das.length := by exact_mod_cast (by omega : 0 < das.length)
      positivity
    · exact hp

theorem kept_length (cfg : Cfg) {m : Nat} (l : List ((Fin m → Fin m) × ℝ)) : (kept cfg l).length ≤ cfg.maxHyp := by
  unfold kept
  split
  · simp
  · rw [List.length_map]
    exact (List.takeWhile_sublist _).length_le.trans (by rw [List.length_take]; exact min_le_left _ _)

theorem hypotheses_length {cfg : Cfg} {n nZ : Nat} {murty : ∀ m, Mat ℝ m → List ((Fin m → Fin m) × ℝ)} {T : Mat ℝ n} {das} (h : hypotheses cfg nZ murty T = .ok das) : das.length ≤ cfg.maxHyp := by
  unfold hypotheses at h
  split at h
  · cases h
  · split at h
    · split at h
      · cases h; simp
      · split at h
        · cases h; simp
        · cases h
          rw [List.length_map]
          exact kept_length _ _
    · cases h

/-- A completed `updateMap(i)` on the filter. -/
theorem updateOne_ok {cfg : Cfg} {s : Scan X Lm} {f f' : Filt X Lm} {A R : List (PF.Part (PState X Lm) ℝ)} {p : PF.Part (PState X Lm) ℝ} (hf : f.parts = A ++ p :: R) (h : updateOne cfg s f A.length = .ok f') :
    ∃ cs o os q' E, (cs = fun h => (f.cands[slot A.length (f.parts.length + os.length) h]?).getD []) ∧ updateMap (s.env p.st.x) cfg s.murty s.prune f.resampled ⟨p.w, p.st.map⟩ cs = .ok (o :: os) ∧ os.length + 1 ≤ cfg.maxHyp ∧
      f' = { f with parts := A ++ put q' o :: R ++ (List.zipWith put E os).reverse, cands := putCands A.length (f.parts.length + os.length) (o :: os) f.cands } ∧ E.length = os.length ∧
      q'.st = p.st ∧ q'.id = p.id ∧ q'.parent = p.parent ∧ (∀ e ∈ E, e.st = p.st ∧ e.parent = p.parent ∧ e.id < f.parts.length + os.length) := by
  unfold updateOne at h
  rw [show f.parts[A.length]? = some p by rw [hf]; simp] at h
  simp only at h
  split at h
  · cases h
  · rename_i das hd
    split at h
    · cases h
    · split at h
      · cases h
      · rename_i out hout
        obtain ⟨h1, h2, -⟩ := updateMap_facts hd hout
        obtain ⟨o, os, rfl⟩ : ∃ o os, out = o :: os := by
          cases out with
          | nil => exact absurd (List.length_eq_zero_iff.1 h2.symm) h1
          | cons o os => exact ⟨o, os, rfl⟩
        have hos : das.length - 1 = os.length := by rw [← h2]; simp
        have hlen : f.parts.length = A.length + 1 + R.length := by rw [hf]; simp; omega
        rw [hos] at h hout
        obtain ⟨q', E, hP, hE, b1, b2, b3, b4⟩ : ∃ (q' : PF.Part (PState X Lm) ℝ) (E : List (PF.Part (PState X Lm) ℝ)),
            split f.parts A.length das.length p = some (A ++ q' :: R ++ E.reverse) ∧ E.length = os.length ∧ q'.st = p.st ∧ q'.id = p.id ∧
            q'.parent = p.parent ∧ ∀ e ∈ E, e.st = p.st ∧ e.parent = p.parent ∧ e.id < A.length + 1 + R.length + os.length := by
          unfold FastRuns.split
          by_cases hc : 1 < das.length
          · rw [if_pos hc, hf, hos, show (A ++ p :: R).set A.length { p with w := p.w / das.length } = A ++ { p with w := p.w / das.length } :: R by simp]
            exact copyParticle_eq A R { p with w := p.w / das.length } os.length _
          · have : os.length = 0 := by omega
            rw [if_neg hc, hf]
            exact ⟨p, [], by simp, this.symm, rfl, rfl, rfl, by simp⟩
        rw [hP] at h
        simp only at h
        have e1 : f.parts.length + os.length = A.length + 1 + R.length + E.length := by rw [hlen, hE]
        rw [e1, putParts_eq o os A R E q' hE, ← e1] at h
        refine ⟨_, o, os, q', E, ?_, hout, ?_, (Except.ok.inj h).symm, hE, b1, b2, b3, ?_⟩
        · rfl
        · have := hypotheses_length hd
          rw [← h2] at this
          simpa using this
        · intro e he
          obtain ⟨c1, c2, c3⟩ := b4 e he
          exact ⟨c1, c2, by rw [hlen]; exact c3⟩

/-- The results of `updateMap` on one particle, as they go into the set. -/
def results (p : PF.Part (PState X Lm) ℝ) (out : List (Particle Lm × List (Cand Lm))) : List (X × ℝ × List (Lm × ℝ)) := out.map fun o => (p.st.x, o.1.w, o.1.map)

/-- The same with the candidates. -/
def results2 (p : PF.Part (PState X Lm) ℝ) (out : List (Particle Lm × List (Cand Lm))) : List ((X × ℝ × List (Lm × ℝ)) × List (Cand Lm)) := out.map fun o => ((p.st.x, o.1.w, o.1.map), o.2)

/-- A particle with the candidates at its index. -/
def view2 (C : List (List (Cand Lm))) (q : PF.Part (PState X Lm) ℝ × Nat) : (X × ℝ × List (Lm × ℝ)) × List (Cand Lm) := (view q.1, (C[q.2]?).getD [])

/-- `out` is what `updateMap` makes of particle `q.1` at index `q.2`. -/
def Made (cfg : Cfg) (s : Scan X Lm) (f : Filt X Lm) (q : PF.Part (PState X Lm) ℝ × Nat) (out : List (Particle Lm × List (Cand Lm))) : Prop :=
  ∃ cs, cs 0 = (f.cands[q.2]?).getD [] ∧ updateMap (s.env q.1.st.x) cfg s.murty s.prune f.resampled ⟨q.1.w, q.1.st.map⟩ cs = .ok out ∧
    ∀ h, 0 < h → h < out.length → ∃ k, f.parts.length ≤ k ∧ cs h = (f.cands[k]?).getD []

/-- After all particles. -/
structure Mid (cfg : Cfg) (s : Scan X Lm) (f0 : Filt X Lm) (i : Nat) (f : Filt X Lm) : Prop where
  parts : ∃ A C outs, f.parts = A ++ f0.parts.drop i ++ C ∧ A.length = i ∧ List.Forall₂ (Made cfg s f0) (f0.parts.zipIdx.take i) outs ∧
    ((A.zipIdx ++ C.zipIdx f0.parts.length).map (view2 f.cands)).Perm (List.zipWith results2 (f0.parts.take i) outs).flatten ∧ C.length ≤ i * (cfg.maxHyp - 1)
  nC : f.cands.length = f0.cands.length
  ids : ∀ p ∈ f.parts, p.id < f0.cands.length ∧ p.parent < f0.cands.length
  res : f.resampled = f0.resampled
  nU : f.nUpd = f0.nUpd
  nM : f.nMeas = f0.nMeas
  nI : f.nInit = f0.nInit

/-- After the particles `done`. -/
structure MidO (cfg : Cfg) (s : Scan X Lm) (f0 : Filt X Lm) (done : List Nat) (f : Filt X Lm) : Prop where
  parts : ∃ A C, ∃ out : Nat → List (Particle Lm × List (Cand Lm)), f.parts = A ++ C ∧ A.length = f0.parts.length ∧ (∀ j, j ∉ done → A[j]? = f0.parts[j]?) ∧
    (∀ j ∈ done, ∀ p, f0.parts[j]? = some p → Made cfg s f0 (p, j) (out j)) ∧
    ((A.zipIdx.filter (fun q => decide (q.2 ∈ done)) ++ C.zipIdx f0.parts.length).map (view2 f.cands)).Perm ((f0.parts.zipIdx.filter (fun q => decide (q.2 ∈ done))).flatMap fun q => results2 q.1 (out q.2)) ∧
    C.length ≤ done.length * (cfg.maxHyp - 1)
  nC : f.cands.length = f0.cands.length
  cands : ∀ j, j ∉ done → j < f0.parts.length → f.cands[j]? = f0.cands[j]?
  free : ∀ j, f.parts.length ≤ j → f.cands[j]? = f0.cands[j]?
  ids : ∀ p ∈ f.parts, p.id < f0.cands.length ∧ p.parent < f0.cands.length
  res : f.resampled = f0.resampled
  nU : f.nUpd = f0.nUpd
  nM : f.nMeas = f0.nMeas
  nI : f.nInit = f0.nInit

theorem mid_zero {cfg : Cfg} {s : Scan X Lm} {f : Filt X Lm} (h : ∀ p ∈ f.parts, p.id < f.cands.length ∧ p.parent < f.cands.length) : MidO cfg s f [] f :=
  ⟨⟨f.parts, [], fun _ => [], by simp, rfl, by simp, by simp, by simp, by simp⟩, rfl, fun _ _ _ => rfl, fun _ _ => rfl, h, rfl, rfl, rfl, rfl⟩

theorem flatten_snoc {α : Type*} (L : List (List α)) (l : List α) : (L ++ [l]).flatten = L.flatten ++ l := by simp

theorem zipWith_view (q : PF.Part (PState X Lm) ℝ) : ∀ (E : List (PF.Part (PState X Lm) ℝ)) (os : List (Particle Lm × List (Cand Lm))), E.length = os.length → (∀ e ∈ E, e.st = q.st) →
    (List.zipWith put E os).map view = results q os := by
  intro E
  induction E with
  | nil => intro os h _; rw [List.length_nil] at h; rw [List.length_eq_zero_iff.1 h.symm]; rfl
  | cons e E ih =>
    intro os h he
    cases os with
    | nil => simp at h
    | cons o os =>
      rw [List.zipWith_cons_cons, List.map_cons, ih os (by simpa using h) fun e' he' => he e' (List.mem_cons_of_mem _ he')]
      simp only [view, put, results, List.map_cons]
      rw [he e List.mem_cons_self]

/-- What the first result looks like in its place. -/
def p2 (q : PF.Part (PState X Lm) ℝ) (o : Particle Lm × List (Cand Lm)) : X × ℝ × List (Lm × ℝ) := view (put q o)

theorem results2_fst (l : List (PF.Part (PState X Lm) ℝ)) (outs : List (List (Particle Lm × List (Cand Lm)))) : (List.zipWith results2 l outs).flatten.map Prod.fst = (List.zipWith results l outs).flatten := by
  rw [List.map_flatten, List.map_zipWith]
  congr 2
  funext p out
  simp only [results, results2, List.map_map]
  rfl

theorem view2_congr {C C' : List (List (Cand Lm))} (l : List (PF.Part (PState X Lm) ℝ × Nat)) (h : ∀ q ∈ l, C'[q.2]? = C[q.2]?) : l.map (view2 C') = l.map (view2 C) := by
  refine List.map_congr_left fun q hq => ?_
  simp only [view2, h q hq]

/-- Replacing one element that was not among the chosen. -/
theorem filter_split {α : Type*} (A R : List α) (p x : α) (k : Nat) (done : List Nat) (hi : k + A.length ∉ done) :
    (((A ++ x :: R).zipIdx k).filter fun q => decide (q.2 ∈ done ++ [k + A.length])).Perm ((((A ++ p :: R).zipIdx k).filter fun q => decide (q.2 ∈ done)) ++ [(x, k + A.length)]) := by
  have e1 : ((A.zipIdx k).filter fun q => decide (q.2 ∈ done ++ [k + A.length])) = (A.zipIdx k).filter fun q => decide (q.2 ∈ done) := by
    refine List.filter_congr fun q hq => ?_
    have := List.snd_lt_add_of_mem_zipIdx hq
    simp only [List.mem_append, List.mem_singleton, decide_eq_decide]
    constructor
    · rintro (h | h)
      · exact h
      · omega
    · exact Or.inl
  have e2 : ((R.zipIdx (k + A.length + 1)).filter fun q => decide (q.2 ∈ done ++ [k + A.length])) = (R.zipIdx (k + A.length + 1)).filter fun q => decide (q.2 ∈ done) := by
    refine List.filter_congr fun q hq => ?_
    have := List.le_snd_of_mem_zipIdx hq
    simp only [List.mem_append, List.mem_singleton, decide_eq_decide]
    constructor
    · rintro (h | h)
      · exact h
      · omega
    · exact Or.inl
  rw [List.zipIdx_append, List.zipIdx_append, List.zipIdx_cons, List.zipIdx_cons, List.filter_append, List.filter_append, e1]
  rw [List.filter_cons_of_pos (by simp), List.filter_cons_of_neg (by simpa using hi), e2, List.append_assoc]
  exact List.Perm.append_left _ (List.perm_append_comm (l₁ := [(x, k + A.length)]))

theorem mid_step {cfg : Cfg} {s : Scan X Lm} {f0 f f' : Filt X Lm} {i : Nat} {done : List Nat} (hi : i < f0.parts.length) (hid : i ∉ done) (hdn : done.length < f0.parts.length)
    (hL : f0.parts.length * cfg.maxHyp ≤ f0.cands.length) (hm : MidO cfg s f0 done f)
    (h : updateOne cfg s f i = .ok f') : MidO cfg s f0 (done ++ [i]) f' := by
  obtain ⟨B, C, out, h1, h2, h2', h3, h4, h5⟩ := hm.parts
  obtain ⟨A, R, rfl, rfl⟩ : ∃ A R, A.length = i ∧ B = A ++ f0.parts[i] :: R := by
    have hp := h2' i hid
    rw [List.getElem?_eq_getElem hi] at hp
    obtain ⟨hiB, hp⟩ := List.getElem?_eq_some_iff.1 hp
    exact ⟨B.take i, B.drop (i + 1), by simp; omega, by rw [← hp]; simp⟩
  have hf : f.parts = A ++ f0.parts[A.length] :: (R ++ C) := by rw [h1, List.append_assoc, List.cons_append]
  obtain ⟨cs, o, os, q', E, c1, c2, c3, rfl, c5, c6, c7, c8, c9⟩ := updateOne_ok hf h
  have hmax : (done.length + 1) * (cfg.maxHyp - 1) + f0.parts.length ≤ f0.cands.length := by
    obtain ⟨m, hm⟩ : ∃ m, cfg.maxHyp = m + 1 := ⟨cfg.maxHyp - 1, by omega⟩
    rw [hm, Nat.add_sub_cancel]
    rw [hm] at hL
    have : (done.length + 1) * m ≤ f0.parts.length * m := Nat.mul_le_mul_right _ hdn
    calc (done.length + 1) * m + f0.parts.length ≤ f0.parts.length * m + f0.parts.length := by omega
      _ = f0.parts.length * (m + 1) := by ring
      _ ≤ _ := hL
  have hn' : f.parts.length = f0.parts.length + C.length := by rw [h1, List.length_append, h2]
  have hlen : f.parts.length + os.length ≤ f0.cands.length := by
    rw [hn']
    have h6 : (done.length + 1) * (cfg.maxHyp - 1) = done.length * (cfg.maxHyp - 1) + (cfg.maxHyp - 1) := by ring
    omega
  have hlen0 : f0.parts.length ≤ f.parts.length := by omega
  refine ⟨⟨A ++ put q' o :: R, C ++ (List.zipWith put E os).reverse, Function.update out A.length (o :: os), by simp, by rw [← h2]; simp, ?_, ?_, ?_, ?_⟩, ?_, ?_, ?_, ?_, hm.res, hm.nU, hm.nM, hm.nI⟩
  · intro j hj
    simp only [List.mem_append, List.mem_singleton, not_or] at hj
    rw [← h2' j hj.1]
    have e : A ++ put q' o :: R = (A ++ f0.parts[A.length] :: R).set A.length (put q' o) := by simp
    rw [e, List.getElem?_set_ne (by omega)]
  · intro j hj p hp
    by_cases hji : j = A.length
    · subst hji
      rw [Function.update_self]
      rw [List.getElem?_eq_getElem hi] at hp
      cases hp
      refine ⟨cs, ?_, ?_, ?_⟩
      · rw [c1, ← hm.cands _ hid hi]; rfl
      · rw [← hm.res]; exact c2
      · intro h h0 hh
        simp only [List.length_cons] at hh
        refine ⟨slot A.length (f.parts.length + os.length) h, ?_, ?_⟩
        · unfold slot; rw [if_neg (by omega)]; omega
        · rw [c1]
          simp only
          rw [hm.free _ (by unfold slot; rw [if_neg (by omega)]; omega)]
    · rw [Function.update_of_ne hji]
      refine h3 j ?_ p hp
      simpa [hji] using hj
  · have hat : ∀ h (hh : h < (o :: os).length), (putCands A.length (f.parts.length + os.length) (o :: os) f.cands)[slot A.length (f.parts.length + os.length) h]? = some (o :: os)[h].2 := by
      intro h hh
      exact putCands_at _ _ _ _ (by simp only [List.length_cons]; omega) (by rw [hm.nC]; exact hlen) h hh
    have hold : ∀ q ∈ (A ++ f0.parts[A.length] :: R).zipIdx.filter (fun q => decide (q.2 ∈ done)) ++ C.zipIdx f0.parts.length, (putCands A.length (f.parts.length + os.length) (o :: os) f.cands)[q.2]? = f.cands[q.2]? := by
      intro q hq
      refine putCands_other _ _ _ _ _ fun h' hh => ?_
      simp only [List.length_cons] at hh
      have hq' : (q.2 ≠ A.length ∧ q.2 < f0.parts.length) ∨ (f0.parts.length ≤ q.2 ∧ q.2 < f0.parts.length + C.length) := by
        rcases List.mem_append.1 hq with hq | hq
        · obtain ⟨g1, g2⟩ := List.mem_filter.1 hq
          have := List.snd_lt_of_mem_zipIdx g1
          rw [h2] at this
          exact Or.inl ⟨fun e => hid (by rw [e] at g2; simpa using g2), this⟩
        · refine Or.inr ⟨List.le_snd_of_mem_zipIdx hq, ?_⟩
          have := List.snd_lt_add_of_mem_zipIdx hq
          omega
      unfold slot
      split <;> omega
    have e2 : results2 f0.parts[A.length] (o :: os) = ((p2 q' o, o.2) :: results2 f0.parts[A.length] os) := by
      simp only [results2, List.map_cons, p2, view, put, c6]
    have e3 : ((List.zipWith put E os).reverse.zipIdx (f0.parts.length + C.length)).map (view2 (putCands A.length (f.parts.length + os.length) (o :: os) f.cands)) = (results2 f0.parts[A.length] os).reverse := by
      refine List.ext_getElem (by simp [results2, c5]) fun k k1 k2 => ?_
      have hk : k < os.length := by simpa [results2] using k2
      rw [List.getElem_map, List.getElem_zipIdx, List.getElem_reverse, List.getElem_reverse, List.getElem_zipWith]
      simp only [results2, List.getElem_map, List.length_map, List.length_zipWith, c5, Nat.min_self, view2]
      have hs : f0.parts.length + C.length + k = slot A.length (f.parts.length + os.length) (os.length - k) := by unfold slot; rw [if_neg (by omega)]; omega
      rw [hs, hat (os.length - k) (by simp only [List.length_cons]; omega), Option.getD_some]
      have hidx : os.length - k = (os.length - 1 - k) + 1 := by omega
      simp only [hidx, List.getElem_cons_succ]
      have hkE : os.length - 1 - k < E.length := by omega
      simp only [view, put, (c9 E[os.length - 1 - k] (List.getElem_mem hkE)).1]
    have e4 : view2 (putCands A.length (f.parts.length + os.length) (o :: os) f.cands) (put q' o, A.length) = (p2 q' o, o.2) := by
      have := hat 0 (by simp)
      simp only [slot, if_true, List.getElem_cons_zero] at this
      simp [view2, p2, this]
    have p1 : ((((A ++ put q' o :: R).zipIdx.filter fun q => decide (q.2 ∈ done ++ [A.length])) ++ (C ++ (List.zipWith put E os).reverse).zipIdx f0.parts.length).map (view2 (putCands A.length (f.parts.length + os.length) (o :: os) f.cands))).Perm
        ((((A ++ f0.parts[A.length] :: R).zipIdx.filter fun q => decide (q.2 ∈ done)) ++ C.zipIdx f0.parts.length).map (view2 f.cands) ++ ((p2 q' o, o.2) :: results2 f0.parts[A.length] os)) := by
      rw [← view2_congr _ hold, List.zipIdx_append (xs := C)]
      simp only [List.map_append, List.append_assoc, e3]
      have hfs := filter_split A R f0.parts[A.length] (put q' o) 0 done (by simpa using hid)
      simp only [Nat.zero_add] at hfs
      refine ((hfs.map (view2 (putCands A.length (f.parts.length + os.length) (o :: os) f.cands))).append_right _).trans ?_
      rw [List.map_append, List.map_cons, List.map_nil, e4, List.append_assoc]
      refine List.Perm.append_left _ ?_
      refine (List.perm_append_comm_assoc _ _ _).trans (List.Perm.append_left _ ?_)
      exact List.Perm.cons _ (List.reverse_perm _)
    refine p1.trans ((h4.append_right _).trans ?_)
    have hsp : f0.parts = f0.parts.take A.length ++ f0.parts[A.length] :: f0.parts.drop (A.length + 1) := by simp
    have htl : (f0.parts.take A.length).length = A.length := by simp; omega
    have hfs := filter_split (f0.parts.take A.length) (f0.parts.drop (A.length + 1)) f0.parts[A.length] f0.parts[A.length] 0 done (by rw [htl]; simpa using hid)
    rw [← hsp, htl, Nat.zero_add] at hfs
    refine List.Perm.trans ?_ (hfs.flatMap_right _).symm
    rw [List.flatMap_append, List.flatMap_singleton, Function.update_self, e2]
    refine List.Perm.append_right _ (List.Perm.of_eq ?_)
    rw [List.flatMap_def, List.flatMap_def]
    congr 1
    refine List.map_congr_left fun q hq => ?_
    have g2 := (List.mem_filter.1 hq).2
    rw [Function.update_of_ne (fun e => hid (by rw [e] at g2; simpa using g2))]
  · have h6 : (done.length + 1) * (cfg.maxHyp - 1) = done.length * (cfg.maxHyp - 1) + (cfg.maxHyp - 1) := by ring
    rw [List.length_append, List.length_reverse, List.length_zipWith, c5, Nat.min_self, List.length_append, List.length_singleton]
    omega
  · rw [putCands_length]; exact hm.nC
  · intro j hj hjn
    simp only [List.mem_append, List.mem_singleton, not_or] at hj
    rw [← hm.cands j hj.1 hjn]
    refine putCands_other _ _ _ _ _ fun h' hh => ?_
    unfold slot
    split
    · omega
    · simp only [List.length_cons] at hh
      omega
  · intro j hj
    simp only [List.length_append, List.length_cons, List.length_reverse, List.length_zipWith, c5, Nat.min_self] at hj
    have hfl : f.parts.length = A.length + 1 + R.length + C.length := by rw [hf]; simp; omega
    rw [← hm.free j (by omega)]
    refine putCands_other _ _ _ _ _ fun h' hh => ?_
    unfold slot
    split
    · omega
    · simp only [List.length_cons] at hh
      omega
  · intro p hp'
    have hqi := hm.ids f0.parts[A.length] (by rw [hf]; simp)
    simp only [List.append_assoc, List.cons_append, List.mem_append, List.mem_cons, List.mem_reverse] at hp'
    rcases hp' with hp' | rfl | hp' | hp' | hp'
    · exact hm.ids p (by rw [hf]; simp [hp'])
    · simp only [put, c7, c8]; exact hqi
    · exact hm.ids p (by rw [hf]; simp [hp'])
    · exact hm.ids p (by rw [hf]; simp [hp'])
    · obtain ⟨k, hk, rfl⟩ := List.getElem_of_mem hp'
      rw [List.getElem_zipWith]
      have hkE : k < E.length := by rw [List.length_zipWith] at hk; omega
      obtain ⟨d1, d2, d3⟩ := c9 E[k] (List.getElem_mem hkE)
      simp only [put, d2]
      exact ⟨by omega, hqi.2⟩

/-- A fold that can fail, on a longer list. -/
theorem foldlM_snoc {α β ε : Type} (g : β → α → Except ε β) (l : List α) (a : α) (b : β) : (l ++ [a]).foldlM g b = (l.foldlM g b).bind fun c => g c a := by
  rw [List.foldlM_append]
  cases l.foldlM g b with
  | error e => rfl
  | ok c =>
    change [a].foldlM g c = g c a
    rw [List.foldlM_cons]
    cases g c a <;> rfl

theorem mid_foldO {cfg : Cfg} {s : Scan X Lm} {f0 : Filt X Lm} (hL : f0.parts.length * cfg.maxHyp ≤ f0.cands.length) (h0 : ∀ p ∈ f0.parts, p.id < f0.cands.length ∧ p.parent < f0.cands.length)
    (done : List Nat) : done.Nodup → (∀ j ∈ done, j < f0.parts.length) → ∀ f, done.foldlM (updateOne cfg s) f0 = .ok f → MidO cfg s f0 done f := by
  induction done using List.reverseRecOn with
  | nil => intro _ _ f h; cases h; exact mid_zero h0
  | append_singleton done i ih =>
    intro hnd hlt f h
    rw [foldlM_snoc] at h
    obtain ⟨n1, -, n2⟩ := List.nodup_append.1 hnd
    cases hg : done.foldlM (updateOne cfg s) f0 with
    | error e => rw [hg] at h; cases h
    | ok g =>
      rw [hg] at h
      have hlen : (done ++ [i]).length ≤ f0.parts.length := by
        have := List.Subperm.length_le (List.subperm_of_subset hnd (fun j hj => List.mem_range.2 (hlt j hj)))
        simpa using this
      exact mid_step (hlt i (by simp)) (fun hi => n2 i hi i (by simp) rfl) (by simpa using hlen) hL (ih n1 (fun j hj => hlt j (by simp [hj])) g hg) h

/-- The end of the loop, whatever the order was. -/
theorem mid_end {cfg : Cfg} {s : Scan X Lm} {f0 f : Filt X Lm} {ord : List Nat} (hord : ord.Perm (List.range f0.parts.length)) (hm : MidO cfg s f0 ord f) : Mid cfg s f0 f0.parts.length f := by
  obtain ⟨A, C, out, h1, h2, -, h3, h4, h5⟩ := hm.parts
  have hall : ∀ j, j ∈ ord ↔ j < f0.parts.length := fun j => by rw [hord.mem_iff, List.mem_range]
  refine ⟨⟨A, C, f0.parts.zipIdx.map fun q => out q.2, by simpa using h1, h2, ?_, ?_, by rw [hord.length_eq, List.length_range] at h5; exact h5⟩, hm.nC, hm.ids, hm.res, hm.nU, hm.nM, hm.nI⟩
  · rw [List.take_of_length_le (by simp)]
    rw [List.forall₂_map_right_iff, List.forall₂_same]
    rintro ⟨p, j⟩ hq
    have := List.mem_zipIdx_iff_getElem?.1 hq
    exact h3 j ((hall j).2 (List.getElem?_eq_some_iff.1 this).1) p this
  · have e1 : (A.zipIdx.filter fun q => decide (q.2 ∈ ord)) = A.zipIdx := by
      rw [List.filter_eq_self]
      intro q hq
      have := List.snd_lt_of_mem_zipIdx hq
      rw [decide_eq_true_iff, hall]; omega
    have e2 : (f0.parts.zipIdx.filter fun q => decide (q.2 ∈ ord)) = f0.parts.zipIdx := by
      rw [List.filter_eq_self]
      intro q hq
      have := List.snd_lt_of_mem_zipIdx hq
      rw [decide_eq_true_iff, hall]; omega
    rw [e1, e2] at h4
    refine h4.trans (List.Perm.of_eq ?_)
    rw [List.flatMap_def, List.take_of_length_le (le_refl _)]
    congr 1
    refine List.ext_getElem (by simp) fun i i1 i2 => ?_
    simp

theorem mid_fold {cfg : Cfg} {s : Scan X Lm} {f0 : Filt X Lm} (hL : f0.parts.length * cfg.maxHyp ≤ f0.cands.length) (h0 : ∀ p ∈ f0.parts, p.id < f0.cands.length ∧ p.parent < f0.cands.length)
    (ord : List Nat) (hord : ord.Perm (List.range f0.parts.length)) (f : Filt X Lm) (h : ord.foldlM (updateOne cfg s) f0 = .ok f) : Mid cfg s f0 f0.parts.length f :=
  mid_end hord (mid_foldO hL h0 ord (hord.nodup_iff.2 List.nodup_range) (fun j hj => List.mem_range.1 (hord.mem_iff.1 hj)) f h)

/-- Nothing but `updateMap` itself can go wrong. -/
theorem updateOne_err {cfg : Cfg} {s : Scan X Lm} {f0 f : Filt X Lm} {i : Nat} {done : List Nat} (hi : i < f0.parts.length) (hid : i ∉ done) (hdn : done.length < f0.parts.length)
    (hL : f0.parts.length * cfg.maxHyp ≤ f0.cands.length) (hm : MidO cfg s f0 done f) (e : RErr)
    (h : updateOne cfg s f i = .error e) : ∃ e', e = .upd e' := by
  obtain ⟨B, C, out, h1, h2, h2', h3, h4, h5⟩ := hm.parts
  obtain ⟨A, R, rfl, rfl⟩ : ∃ A R, A.length = i ∧ B = A ++ f0.parts[i] :: R := by
    have hp := h2' i hid
    rw [List.getElem?_eq_getElem hi] at hp
    obtain ⟨hiB, hp⟩ := List.getElem?_eq_some_iff.1 hp
    exact ⟨B.take i, B.drop (i + 1), by simp; omega, by rw [← hp]; simp⟩
  have hf : f.parts = A ++ f0.parts[A.length] :: (R ++ C) := by rw [h1, List.append_assoc, List.cons_append]
  have hlen : f.parts.length = f0.parts.length + C.length := by rw [h1, List.length_append, h2]
  unfold updateOne at h
  rw [show f.parts[A.length]? = some f0.parts[A.length] by rw [hf]; simp] at h
  simp only at h
  split at h
  · cases h; exact ⟨_, rfl⟩
  · rename_i das hd
    split at h
    · rename_i hbad
      exfalso
      obtain ⟨k, hk, hb⟩ := hbad
      have hH := hypotheses_length hd
      rw [hm.nC] at hb
      obtain ⟨m, hm'⟩ : ∃ m, cfg.maxHyp = m + 1 := ⟨cfg.maxHyp - 1, by omega⟩
      rw [hm', Nat.add_sub_cancel] at h5
      rw [hm'] at hL hH
      have h7 : (done.length + 1) * m ≤ f0.parts.length * m := Nat.mul_le_mul_right _ hdn
      have h8 : f0.parts.length * (m + 1) = f0.parts.length * m + f0.parts.length := by ring
      have h9 : (done.length + 1) * m = done.length * m + m := by ring
      unfold slot at hb
      split at hb
      · omega
      · omega
    · split at h
      · cases h; exact ⟨_, rfl⟩
      · rename_i out hout
        exfalso
        split at h
        · rename_i hnone
          unfold FastRuns.split at hnone
          split at hnone
          · rw [hf, show (A ++ f0.parts[A.length] :: (R ++ C)).set A.length { f0.parts[A.length] with w := f0.parts[A.length].w / das.length } = A ++ { f0.parts[A.length] with w := f0.parts[A.length].w / das.length } :: (R ++ C) by simp] at hnone
            obtain ⟨q', E, hP, -⟩ := copyParticle_eq A (R ++ C) { f0.parts[A.length] with w := f0.parts[A.length].w / das.length } (das.length - 1) (f0.parts[A.length].w / das.length)
            rw [hP] at hnone
            cases hnone
          · cases hnone
        · cases h

theorem fold_errO {cfg : Cfg} {s : Scan X Lm} {f0 : Filt X Lm} (hL : f0.parts.length * cfg.maxHyp ≤ f0.cands.length) (h0 : ∀ p ∈ f0.parts, p.id < f0.cands.length ∧ p.parent < f0.cands.length) (e : RErr)
    (done : List Nat) : done.Nodup → (∀ j ∈ done, j < f0.parts.length) → done.foldlM (updateOne cfg s) f0 = .error e → ∃ e', e = .upd e' := by
  induction done using List.reverseRecOn with
  | nil => intro _ _ h; cases h
  | append_singleton done i ih =>
    intro hnd hlt h
    rw [foldlM_snoc] at h
    obtain ⟨n1, -, n2⟩ := List.nodup_append.1 hnd
    cases hg : done.foldlM (updateOne cfg s) f0 with
    | error e' =>
      rw [hg] at h
      cases h
      exact ih n1 (fun j hj => hlt j (by simp [hj])) hg
    | ok g =>
      rw [hg] at h
      have hlen : (done ++ [i]).length ≤ f0.parts.length := by
        have := List.Subperm.length_le (List.subperm_of_subset hnd (fun j hj => List.mem_range.2 (hlt j hj)))
        simpa using this
      exact updateOne_err (hlt i (by simp)) (fun hi => n2 i hi i (by simp) rfl) (by simpa using hlen) hL (mid_foldO hL h0 done n1 (fun j hj => hlt j (by simp [hj])) g hg) e h

theorem fold_err {cfg : Cfg} {s : Scan X Lm} {f0 : Filt X Lm} (hL : f0.parts.length * cfg.maxHyp ≤ f0.cands.length) (h0 : ∀ p ∈ f0.parts, p.id < f0.cands.length ∧ p.parent < f0.cands.length) (e : RErr)
    (ord : List Nat) (hord : ord.Perm (List.range f0.parts.length)) (h : ord.foldlM (updateOne cfg s) f0 = .error e) : ∃ e', e = .upd e' :=
  fold_errO hL h0 e ord (hord.nodup_iff.2 List.nodup_range) (fun j hj => List.mem_range.1 (hord.mem_iff.1 hj)) h

theorem moveCands_ok {α : Type} : ∀ (l : List (Nat × Nat)) (C : List α), (∀ x ∈ l, x.1 < C.length ∧ x.2 < C.length) →
    ∃ C', l.foldlM (fun cs x => if x.1 = x.2 then some cs else (cs[x.1]?).bind fun c => if x.2 < cs.length then some (cs.set x.2 c) else none) C = some C' ∧ C'.length = C.length := by
  intro l
  induction l with
  | nil => intro C _; exact ⟨C, rfl, rfl⟩
  | cons x l ih =>
    intro C h
    obtain ⟨h1, h2⟩ := h x List.mem_cons_self
    rw [List.foldlM_cons]
    by_cases hx : x.1 = x.2
    · rw [if_pos hx]
      exact ih C fun y hy => h y (List.mem_cons_of_mem _ hy)
    · rw [if_neg hx, List.getElem?_eq_getElem h1, Option.bind_some, if_pos h2]
      obtain ⟨C', h3, h4⟩ := ih (C.set x.2 C[x.1]) fun y hy => by rw [List.length_set]; exact h y (List.mem_cons_of_mem _ hy)
      exact ⟨C', h3, by rw [h4, List.length_set]⟩

/-! ### Resampling -/

theorem normalize_twice {S : Type} (P : List (PF.Part S ℝ)) (h : (P.map PF.Part.w).sum ≠ 0) : PF.normalizeWeights (PF.normalizeWeights P) = PF.normalizeWeights P := by
  have e := (PFProps.C31_normalize P h).1
  rw [show PF.normalizeWeights (PF.normalizeWeights P) = (PF.normalizeWeights P).map fun p => { p with w := p.w / ((PF.normalizeWeights P).map PF.Part.w).sum } from rfl, e]
  conv_rhs => rw [← List.map_id (PF.normalizeWeights P)]
  refine List.map_congr_left fun p _ => ?_
  rw [div_one]
  rfl

theorem mem_set_cases {α : Type} {l : List α} {i : Nat} {a x : α} (h : x ∈ l.set i a) : x ∈ l ∨ x = a := List.mem_or_eq_of_mem_set h

/-- Resampling makes no new ids. -/
theorem copyLoop_ids {S : Type} (Q : Nat → Prop) (flag : Nat → Bool) (n : Nat) : ∀ (L : List Nat) (prev : Option Nat) (s : List (PF.Part S ℝ) × Nat) (P' : List (PF.Part S ℝ)), (∀ p ∈ s.1, Q p.id) →
    PF.copyLoop flag n L prev s = some P' → ∀ p ∈ P', Q p.id := by
  intro L
  induction L with
  | nil => intro prev s P' h e; unfold PF.copyLoop at e; cases e; exact h
  | cons i L ih =>
    intro prev s P' h e
    unfold PF.copyLoop at e
    split at e
    · cases e
    · rename_i p hp
      have hp' := h p (List.mem_of_getElem? hp)
      have hset : ∀ k, ∀ q ∈ s.1.set k { p with parent := p.id }, Q q.id := by
        intro k q hq
        rcases mem_set_cases hq with hq | rfl
        · exact h q hq
        · exact hp'
      split at e
      · exact ih _ _ _ (hset _) e
      · split at e
        · cases e
        · exact ih _ _ _ (hset _) e

theorem resample_ids {S : Type} (Q : Nat → Prop) (P P' : List (PF.Part S ℝ)) (n : Nat) (force : Bool) (t tp u : ℝ) (h : ∀ p ∈ P, Q p.id) (e : PF.resample P n force t tp u = some (true, P')) : ∀ p ∈ P', Q p.id := by
  have hn : ∀ p ∈ PF.normalizeWeights P, Q p.id := by
    intro p hp
    unfold PF.normalizeWeights at hp
    obtain ⟨q, hq, rfl⟩ := List.mem_map.1 hp
    exact h q hq
  unfold PF.resample at e
  simp only at e
  split at e
  · simp at e
  · split at e
    · cases e
    · split at e
      · cases e
      · rename_i P2 hc
        cases e
        intro p hp
        obtain ⟨q, hq, rfl⟩ := List.mem_map.1 hp
        exact copyLoop_ids Q _ _ _ _ _ _ hn hc q (List.mem_of_mem_take hq)

/-- What holds of the filter between two calls: `n` is the number of particles it was made with. -/
structure Inv (n nMax : Nat) (f : Filt X Lm) : Prop where
  nI : f.nInit = n
  pos : 0 < n
  lo : n ≤ f.parts.length
  hi : f.parts.length ≤ max n nMax
  nC : f.parts.length ≤ f.cands.length
  ids : ∀ p ∈ f.parts, p.id < f.cands.length ∧ p.parent < f.cands.length
  w : ∀ p ∈ f.parts, 0 < p.w

theorem total_pos {f : Filt X Lm} (hne : f.parts ≠ []) (h : ∀ p ∈ f.parts, 0 < p.w) : 0 < (f.parts.map PF.Part.w).sum := by
  refine List.sum_pos _ ?_ (by simpa using hne)
  intro x hx
  obtain ⟨a, ha, rfl⟩ := List.mem_map.1 hx
  exact h a ha

/-- Resampling and normalisation at the end of `update`. -/
theorem resampleMove_spec {cfg : RCfg} {s : Scan X Lm} {f : Filt X Lm} {n : Nat} (hr : 0 ≤ s.r ∧ s.r < 1) (hn : 0 < n) (hI : f.nInit = n) (hlo : n ≤ f.parts.length) (hC : f.parts.length ≤ f.cands.length)
    (hids : ∀ p ∈ f.parts, p.id < f.cands.length ∧ p.parent < f.cands.length) (hw : ∀ p ∈ f.parts, 0 < p.w) :
    ∃ f', resampleMove cfg s f = .ok f' ∧ Inv n cfg.nMax f' ∧
      (f'.resampled = false → f'.parts.length = f.parts.length ∧ f'.nUpd = f.nUpd ∧ f'.nMeas = f.nMeas ∧ f'.cands = f.cands ∧ (f'.parts.map PF.Part.w).sum = 1 ∧
        f'.parts.map view = f.parts.map fun p => (p.st.x, p.w / (f.parts.map PF.Part.w).sum, p.st.map)) ∧
      (f'.resampled = true → f'.parts.length = n ∧ f'.nUpd = 0 ∧ f'.nMeas = 0 ∧ ∀ p ∈ f'.parts, p.w = 1 ∧ ∃ q ∈ f.parts, p.st = q.st) := by
  have hne : f.parts ≠ [] := by intro e; rw [e] at hlo; simp at hlo; omega
  have ht := total_pos hne hw
  have hnorm : ∀ b, Inv n cfg.nMax { f with parts := PF.normalizeWeights f.parts, resampled := b } ∨ cfg.nMax < f.parts.length := by
    intro b
    by_cases hm : cfg.nMax < f.parts.length
    · exact Or.inr hm
    · refine Or.inl ⟨hI, hn, by rw [PFProps.normalized_length]; exact hlo, by rw [PFProps.normalized_length]; omega, by rw [PFProps.normalized_length]; exact hC, ?_, ?_⟩
      · intro p hp
        obtain ⟨q, hq, rfl⟩ := List.mem_map.1 hp
        exact hids q hq
      · intro p hp
        obtain ⟨q, hq, rfl⟩ := List.mem_map.1 hp
        exact div_pos (hw q hq) ht
  have hrest : ∀ g : Filt X Lm, g = { f with parts := PF.normalizeWeights f.parts, resampled := false } → ¬ cfg.nMax < f.parts.length → resampleMove cfg s f = .ok g →
      ∃ f', resampleMove cfg s f = .ok f' ∧ Inv n cfg.nMax f' ∧
      (f'.resampled = false → f'.parts.length = f.parts.length ∧ f'.nUpd = f.nUpd ∧ f'.nMeas = f.nMeas ∧ f'.cands = f.cands ∧ (f'.parts.map PF.Part.w).sum = 1 ∧
        f'.parts.map view = f.parts.map fun p => (p.st.x, p.w / (f.parts.map PF.Part.w).sum, p.st.map)) ∧
      (f'.resampled = true → f'.parts.length = n ∧ f'.nUpd = 0 ∧ f'.nMeas = 0 ∧ ∀ p ∈ f'.parts, p.w = 1 ∧ ∃ q ∈ f.parts, p.st = q.st) := by
    intro g hg hm e
    refine ⟨g, e, by rw [hg]; exact (hnorm false).resolve_right hm, ?_, ?_⟩
    · intro _
      subst hg
      refine ⟨PFProps.normalized_length _, rfl, rfl, rfl, (PFProps.C31_normalize _ ht.ne').1, ?_⟩
      simp only [PF.normalizeWeights, List.map_map]
      rfl
    · intro h
      rw [hg] at h
      simp at h
  by_cases hdue : cfg.nMax < f.parts.length ∨ (cfg.minUpd ≤ f.nUpd ∧ cfg.minMeas ≤ f.nMeas)
  · by_cases hdo : decide (cfg.nMax < f.parts.length) = true ∨ ¬ PF.enough (PF.normalizeWeights f.parts) s.t s.tp
    · obtain ⟨P', L, src, e1, e2, e3, sp, pl, _, h1, hk, hsl⟩ := PFProps.C30_resample f.parts ht f.nInit (decide (cfg.nMax < f.parts.length)) s.t s.tp s.r hr.1 hr.2 hdo
      have htg : PFProps.target f.parts.length f.nInit = n := by unfold PFProps.target; rw [hI, if_neg (by omega)]
      rw [htg] at pl
      have hsrc : ∀ p ∈ P', ∃ q ∈ f.parts, p.st = q.st ∧ p.parent = q.id := by
        intro p hp
        obtain ⟨k, hk⟩ := List.mem_iff_getElem?.1 hp
        obtain ⟨j, q, -, j2, j3, j4⟩ := hsl k p hk
        exact ⟨q, List.mem_of_getElem? j2, j3, j4⟩
      have hmv : ∃ C', moveCands (P'.map PF.Part.parent) f.cands = some C' ∧ C'.length = f.cands.length := by
        unfold moveCands
        refine moveCands_ok _ _ fun x hx => ?_
        rw [List.mem_zipIdx_iff_getElem?, List.getElem?_map] at hx
        obtain ⟨p, hp, hpx⟩ := Option.map_eq_some_iff.1 hx
        obtain ⟨q, hq, -, hqi⟩ := hsrc p (List.mem_of_getElem? hp)
        refine ⟨by rw [← hpx, hqi]; exact (hids q hq).1, ?_⟩
        have := (List.getElem?_eq_some_iff.1 hp).1
        omega
      obtain ⟨C', hC1, hC2⟩ := hmv
      have e : resampleMove cfg s f = .ok { f with parts := P', cands := C', resampled := true, nUpd := 0, nMeas := 0 } := by
        unfold resampleMove
        simp only
        rw [if_pos hdue, e1]
        simp only
        rw [hC1]
      refine ⟨_, e, ⟨hI, hn, by simp only; omega, by simp only; omega, by simp only; omega, ?_, ?_⟩, fun h => by simp at h, fun _ => ⟨pl, rfl, rfl, fun p hp => ?_⟩⟩
      · intro p hp
        simp only [hC2]
        obtain ⟨q, hq, -, hqi⟩ := hsrc p hp
        exact ⟨resample_ids (fun k => k < f.cands.length) _ _ _ _ _ _ _ (fun q hq => (hids q hq).1) e1 p hp, by rw [hqi]; exact (hids q hq).1⟩
      · intro p hp
        rw [h1 p hp]; exact one_pos
      · obtain ⟨q, hq, hst, -⟩ := hsrc p hp
        exact ⟨h1 p hp, q, hq, hst⟩
    · push Not at hdo
      have hm : ¬ cfg.nMax < f.parts.length := by simpa using hdo.1
      refine hrest _ rfl hm ?_
      unfold resampleMove
      simp only
      rw [if_pos hdue]
      have : PF.resample f.parts f.nInit (decide (cfg.nMax < f.parts.length)) s.t s.tp s.r = some (false, PF.normalizeWeights f.parts) := by
        unfold PF.resample
        simp only
        rw [if_pos ⟨by simpa using hm, hdo.2⟩]
      rw [this]
      simp only
      rw [normalize_twice _ ht.ne']
  · refine hrest _ rfl (fun h => hdue (Or.inl h)) ?_
    unfold resampleMove
    simp only
    rw [if_neg hdue]

theorem ctor_inv {n : Nat} (hn : 0 < n) (nMax : Nat) (x0 : X) (b : Bool) : Inv n nMax (ctor n x0 b : Filt X Lm) := by
  refine ⟨rfl, hn, by simp [ctor, PF.addParticles], by simp [ctor, PF.addParticles], by simp [ctor, PF.addParticles], ?_, ?_⟩
  · intro p hp
    simp only [ctor, PF.addParticles, List.nil_append, List.mem_map, List.mem_range] at hp
    obtain ⟨i, hi, rfl⟩ := hp
    simpa [ctor] using hi
  · intro p hp
    simp only [ctor, PF.addParticles, List.nil_append, List.mem_map, List.mem_range] at hp
    obtain ⟨i, hi, rfl⟩ := hp
    norm_num

theorem grow_length (n : Nat) (C : List (List (Cand Lm))) : (grow n C).length = max n C.length := by
  simp only [grow, List.length_append, List.length_replicate]; omega

theorem grow_get (n : Nat) (C : List (List (Cand Lm))) (i : Nat) : ((grow n C)[i]?).getD [] = (C[i]?).getD [] := by
  unfold grow
  by_cases h : i < C.length
  · rw [List.getElem?_append_left h]
  · rw [List.getElem?_append_right (by omega), List.getElem?_eq_none (l := C) (by omega)]
    rw [List.getElem?_replicate]
    split <;> rfl

/-- The filter when the loop over the particles begins. -/
def begun (cfg : RCfg) (s : Scan X Lm) (f : Filt X Lm) : Filt X Lm :=
  { f with cands := grow (f.parts.length * cfg.cfg.maxHyp) f.cands, nUpd := f.nUpd + 1, nMeas := f.nMeas + s.nZ }

theorem begun_ok {cfg : RCfg} {s : Scan X Lm} {f : Filt X Lm} {n nMax : Nat} (hi : Inv n nMax f) : (begun cfg s f).parts.length * cfg.cfg.maxHyp ≤ (begun cfg s f).cands.length ∧
    ∀ p ∈ (begun cfg s f).parts, p.id < (begun cfg s f).cands.length ∧ p.parent < (begun cfg s f).cands.length := by
  simp only [begun, grow_length]
  refine ⟨le_max_left _ _, fun p hp => ?_⟩
  have := hi.ids p hp
  constructor <;> omega

/-- After the loop over the particles. -/
theorem loop_facts {cfg : RCfg} {s : Scan X Lm} {f f1 : Filt X Lm} {n : Nat} (hi : Inv n cfg.nMax f) (hord : ∀ n, (s.order n).Perm (List.range n)) (hf1 : (s.order f.parts.length).foldlM (updateOne cfg.cfg s) (begun cfg s f) = .ok f1) :
    Mid cfg.cfg s (begun cfg s f) f.parts.length f1 ∧ f.parts.length ≤ f1.parts.length ∧ f1.parts.length ≤ f.parts.length * cfg.cfg.maxHyp ∧ (∀ p ∈ f1.parts, 0 < p.w) ∧ f1.nInit = n ∧
      f1.parts.length ≤ f1.cands.length ∧ ∀ p ∈ f1.parts, p.id < f1.cands.length ∧ p.parent < f1.cands.length := by
    obtain ⟨b1, b2⟩ := begun_ok (cfg := cfg) (s := s) hi
    have hm : Mid cfg.cfg s (begun cfg s f) f.parts.length f1 := mid_fold b1 b2 _ (hord _) f1 hf1
    obtain ⟨A, C, outs, h1, h2, h3, h4, h5⟩ := hm.parts
    have hd : (begun cfg s f).parts.drop f.parts.length = [] := by simp [begun]
    rw [hd, List.append_nil] at h1
    have hlen : f1.parts.length = f.parts.length + C.length := by rw [h1, List.length_append, h2]
    have hH : 0 < cfg.cfg.maxHyp := by
      by_contra hc
      have h0 : 0 < f.parts.length := lt_of_lt_of_le hi.pos hi.lo
      have ho : outs.length = f.parts.length := by
        have := h3.length_eq
        simp only [begun, List.length_take, List.length_zipIdx, min_self] at this
        exact this.symm
      obtain ⟨cs, -, hcs, -⟩ := (List.forall₂_iff_get.1 h3).2 0 (by simp [begun, h0]) (by omega)
      unfold updateMap at hcs
      revert hcs
      generalize hg : hypotheses (nZ := s.nZ) cfg.cfg s.murty _ = g
      intro hcs
      cases g with
      | error e => cases hcs
      | ok das =>
        have := hypotheses_length hg
        rw [bind_ok, if_pos (by omega)] at hcs
        cases hcs
    have hub : f1.parts.length ≤ f.parts.length * cfg.cfg.maxHyp := by
      obtain ⟨m, hm'⟩ : ∃ m, cfg.cfg.maxHyp = m + 1 := ⟨cfg.cfg.maxHyp - 1, by omega⟩
      rw [hm', Nat.add_sub_cancel] at h5
      rw [hm', hlen]
      have : f.parts.length * (m + 1) = f.parts.length * m + f.parts.length := by ring
      omega
    have h4 : ((A ++ C).map view).Perm (List.zipWith results ((begun cfg s f).parts.take f.parts.length) outs).flatten := by
      have := h4.map Prod.fst
      rw [results2_fst, List.map_map, List.map_append] at this
      refine List.Perm.trans (List.Perm.of_eq ?_) this
      rw [List.map_append]
      congr 1
      · exact (List.ext_getElem (by simp) fun i i1 i2 => by simp [view2])
      · exact (List.ext_getElem (by simp) fun i i1 i2 => by simp [view2])
    have hw : ∀ p ∈ f1.parts, 0 < p.w := by
      intro p hp
      have : view p ∈ (A ++ C).map view := List.mem_map_of_mem (by rw [← h1]; exact hp)
      rw [h4.mem_iff, List.mem_flatten] at this
      obtain ⟨l, hl, hv⟩ := this
      obtain ⟨k, hk, rfl⟩ := List.getElem_of_mem hl
      rw [List.getElem_zipWith] at hv
      unfold results at hv
      obtain ⟨o, ho, hov⟩ := List.mem_map.1 hv
      have hk1 : k < f.parts.length := by rw [List.length_zipWith, List.length_take] at hk; simp only [begun] at hk; omega
      have hk2 : k < outs.length := by rw [List.length_zipWith] at hk; omega
      obtain ⟨cs, -, hcs, -⟩ := (List.forall₂_iff_get.1 h3).2 k (by simp [begun, hk1]) hk2
      simp only [List.get_eq_getElem, List.getElem_take, List.getElem_zipIdx] at hcs
      have hpw : 0 < f.parts[k].w := hi.w _ (List.getElem_mem hk1)
      have h8 : ∀ (q : PF.Part (PState X Lm) ℝ) (r : Bool), updateMap (s.env q.st.x) cfg.cfg s.murty s.prune r ⟨q.w, q.st.map⟩ cs = .ok outs[k] → ∃ w da c, (0 < q.w → 0 < w) ∧
          hypUpdate (s.env q.st.x) cfg.cfg s.prune (inRange (s.env q.st.x) q.st.map) da ⟨w, q.st.map⟩ c = .ok o := by
        intro q r hq
        cases hg : hypotheses cfg.cfg s.nZ s.murty (table (s.env q.st.x) cfg.cfg (inRange (s.env q.st.x) q.st.map)) with
        | error e => unfold updateMap at hq; simp only at hq; rw [hg] at hq; cases hq
        | ok das => exact (updateMap_facts (p := ⟨q.w, q.st.map⟩) hg hq).2.2 o ho
      obtain ⟨w, da, c, hwp, hu⟩ := h8 _ _ hcs
      have := hypUpdate_weight hu (hwp hpw)
      rw [show p.w = (view p).2.1 from rfl, ← hov]
      exact this
    have hcl : f1.cands.length = (begun cfg s f).cands.length := hm.nC
    have hC : f1.parts.length ≤ f1.cands.length := by
      rw [hcl]
      simp only [begun, grow_length]
      omega
    exact ⟨hm, by omega, hub, hw, by rw [hm.nI]; exact hi.nI, hC, fun p hp => by rw [hcl]; exact hm.ids p hp⟩

/-- A scan with measurements that is processed. -/
theorem update_nonempty {cfg : RCfg} {s : Scan X Lm} {f f' : Filt X Lm} {n : Nat} (hi : Inv n cfg.nMax f) (hZ : s.nZ ≠ 0) (hr : (0 ≤ s.r ∧ s.r < 1) ∧ ∀ n, (s.order n).Perm (List.range n)) (h : update cfg s f = .ok f') :
    ∃ f1, Mid cfg.cfg s (begun cfg s f) f.parts.length f1 ∧ f.parts.length ≤ f1.parts.length ∧ f1.parts.length ≤ f.parts.length * cfg.cfg.maxHyp ∧ (∀ p ∈ f1.parts, 0 < p.w) ∧ resampleMove cfg s f1 = .ok f' ∧ Inv n cfg.nMax f' ∧
      (f'.resampled = false → f'.parts.length = f1.parts.length ∧ f'.nUpd = f1.nUpd ∧ f'.nMeas = f1.nMeas ∧ f'.cands = f1.cands ∧ (f'.parts.map PF.Part.w).sum = 1 ∧
        f'.parts.map view = f1.parts.map fun p => (p.st.x, p.w / (f1.parts.map PF.Part.w).sum, p.st.map)) ∧
      (f'.resampled = true → f'.parts.length = n ∧ f'.nUpd = 0 ∧ f'.nMeas = 0 ∧ ∀ p ∈ f'.parts, p.w = 1 ∧ ∃ q ∈ f1.parts, p.st = q.st) := by
  unfold update at h
  simp only at h
  rw [if_neg hZ] at h
  split at h
  · cases h
  · rename_i f1 hf1
    obtain ⟨hm, c1, c2, c3, c4, c5, c6⟩ := loop_facts hi hr.2 hf1
    obtain ⟨g, g1, g2, g3, g4⟩ := resampleMove_spec (cfg := cfg) (s := s) (f := f1) (n := n) hr.1 hi.pos c4 (by have := hi.lo; omega) c5 c6 c3
    rw [g1] at h
    cases h
    exact ⟨f1, hm, c1, c2, c3, g1, g2, g3, g4⟩

theorem update_err {cfg : RCfg} {s : Scan X Lm} {f : Filt X Lm} {n : Nat} (hi : Inv n cfg.nMax f) (hr : (0 ≤ s.r ∧ s.r < 1) ∧ ∀ n, (s.order n).Perm (List.range n)) (e : RErr) (h : update cfg s f = .error e) : ∃ e', e = .upd e' := by
  by_cases hZ : s.nZ = 0
  · unfold update at h
    simp only at h
    rw [if_pos hZ] at h
    cases h
  · unfold update at h
    simp only at h
    rw [if_neg hZ] at h
    split at h
    · rename_i e1 he
      cases h
      obtain ⟨b1, b2⟩ := begun_ok (cfg := cfg) (s := s) hi
      exact fold_err b1 b2 e _ (hr.2 _) he
    · rename_i f1 hf1
      exfalso
      obtain ⟨hm, c1, c2, c3, c4, c5, c6⟩ := loop_facts hi hr.2 hf1
      obtain ⟨g, g1, -⟩ := resampleMove_spec (cfg := cfg) (s := s) (f := f1) (n := n) hr.1 hi.pos c4 (by have := hi.lo; omega) c5 c6 c3
      rw [g1] at h
      cases h

theorem update_empty {cfg : RCfg} {s : Scan X Lm} {f : Filt X Lm} (hZ : s.nZ = 0) : update cfg s f = .ok { f with cands := grow (f.parts.length * cfg.cfg.maxHyp) f.cands, nUpd := f.nUpd + 1 } := by
  unfold update
  simp only
  rw [if_pos hZ]

theorem step_inv {cfg : RCfg} {f f' : Filt X Lm} {n : Nat} (hi : Inv n cfg.nMax f) (c : Cmd X Lm) (hr : ∀ s, c = .update s → (0 ≤ s.r ∧ s.r < 1) ∧ ∀ n, (s.order n).Perm (List.range n)) (h : step cfg f c = .ok f') : Inv n cfg.nMax f' := by
  cases c with
  | predict mx ml =>
    cases h
    refine ⟨hi.nI, hi.pos, by simpa using hi.lo, by simpa using hi.hi, by simpa using hi.nC, ?_, ?_⟩
    · intro p hp
      obtain ⟨q, hq, rfl⟩ := List.mem_map.1 hp
      exact hi.ids q.1 (List.fst_mem_of_mem_zipIdx hq)
    · intro p hp
      obtain ⟨q, hq, rfl⟩ := List.mem_map.1 hp
      exact hi.w q.1 (List.fst_mem_of_mem_zipIdx hq)
  | update s =>
    by_cases hZ : s.nZ = 0
    · have h' : update cfg s f = .ok f' := h
      rw [update_empty hZ] at h'
      cases h'
      refine ⟨hi.nI, hi.pos, hi.lo, hi.hi, ?_, ?_, hi.w⟩
      · simp only [grow_length]; have := hi.nC; omega
      · intro p hp
        simp only [grow_length]
        have := hi.ids p hp
        constructor <;> omega
    · obtain ⟨f1, -, -, -, -, -, h2, -⟩ := update_nonempty hi hZ (hr s rfl) h
      exact h2

/-! ### Weights of the landmarks -/

theorem sweep_weights {cfg : Cfg} {nFov : Nat} {nw : ℝ} : ∀ (cs : List (Cand Lm)) (r), sweep cfg nFov nw cs = .ok r → ∀ x ∈ r.2, ∃ k : Nat, x.2 = nw * k := by
  intro cs
  induction cs with
  | nil => intro r h; cases h; simp
  | cons c cs ih =>
    intro r h
    unfold sweep at h
    simp only at h
    split at h
    · split at h
      · cases h
      · rename_i d ds
        cases hs : sweep cfg nFov nw (d :: ds) with
        | error e => rw [hs] at h; cases h
        | ok r' =>
          rw [hs] at h
          cases h
          intro x hx
          simp only at hx
          split at hx
          · rcases List.mem_cons.1 hx with rfl | hx
            · exact ⟨_, rfl⟩
            · exact ih r' hs x hx
          · exact ih r' hs x hx
    · cases hs : sweep cfg nFov nw cs with
      | error e => rw [hs] at h; cases h
      | ok r' =>
        rw [hs] at h
        cases h
        exact ih r' hs

theorem birthStep_weights {nZ : Nat} {env : Env Lm nZ} {cfg : Cfg} {nFov : Nat} {nw : ℝ} {s r : List (Lm × ℝ) × List (Cand Lm)} {z : Fin nZ}
    (h : birthStep env cfg nFov nw s z = .ok r) : ∀ x ∈ r.1, x ∈ s.1 ∨ ∃ k : Nat, x.2 = nw * k := by
  unfold birthStep at h
  cases hsw : sweep cfg nFov nw (place env cfg nFov nw s z).2 with
  | error e => rw [hsw] at h; cases h
  | ok q =>
    rw [hsw] at h
    cases h
    intro x hx
    rcases List.mem_append.1 hx with hx | hx
    · unfold place at hx
      split at hx
      · exact Or.inl hx
      · split at hx
        · rcases List.mem_append.1 hx with hx | hx
          · exact Or.inl hx
          · rw [List.mem_singleton] at hx
            exact Or.inr ⟨1, by rw [hx]; simp⟩
        · exact Or.inl hx
    · exact Or.inr (sweep_weights _ q hsw x hx)

theorem births_weights {nZ : Nat} {env : Env Lm nZ} {cfg : Cfg} {nFov : Nat} {nw : ℝ} (l : List (Fin nZ)) : ∀ {s r : List (Lm × ℝ) × List (Cand Lm)},
    l.foldlM (birthStep env cfg nFov nw) s = .ok r → ∀ x ∈ r.1, x ∈ s.1 ∨ ∃ k : Nat, x.2 = nw * k := by
  induction l with
  | nil => intro s r h; cases h; exact fun x hx => Or.inl hx
  | cons z l ih =>
    intro s r h
    rw [List.foldlM_cons] at h
    cases hb : birthStep env cfg nFov nw s z with
    | error e => rw [hb] at h; cases h
    | ok y =>
      rw [hb] at h
      intro x hx
      rcases ih (s := y) h x hx with hx | hx
      · exact birthStep_weights hb x hx
      · exact Or.inr hx

/-- Landmarks after one hypothesis: those that `prune` kept, and new ones. -/
theorem hypUpdate_map {nZ : Nat} {env : Env Lm nZ} {cfg : Cfg} {prune : List (Lm × ℝ) → List (Lm × ℝ)} {lms : List (Nat × Lm × ℝ)} {da : Fin (max lms.length nZ) → Option (Fin nZ)} {p : Particle Lm}
    {cands : List (Cand Lm)} {o : Particle Lm × List (Cand Lm)} (h : hypUpdate env cfg prune lms da p cands = .ok o) (hn : cfg.pruneMeas ≤ nZ) :
    ∃ m, ∀ x ∈ o.1.map, x ∈ prune m ∨ ∃ k : Nat, x.2 = Real.log (cfg.prior / (1 - cfg.prior)) * k := by
  unfold hypUpdate at h
  cases h1 : lmLoop env cfg lms da p.map with
  | error e => rw [h1] at h; cases h
  | ok s =>
    rw [h1, bind_ok] at h
    cases h2 : newWeight cfg with
    | error e => rw [h2] at h; cases h
    | ok nw =>
      rw [h2, bind_ok, if_pos hn] at h
      have hnw : nw = Real.log (cfg.prior / (1 - cfg.prior)) := by
        unfold newWeight addLogOdds at h2
        split at h2
        · cases h2; simp
        · cases h2
      revert h
      generalize hx : List.foldlM (m := Except Err) _ _ _ = x
      intro h
      cases x with
      | error e => cases h
      | ok r =>
        cases h
        rw [← hnw]
        exact ⟨s.map, births_weights _ hx⟩

end FastRuns
end RFS
