import Verif.Props.PSO

/-!
Property C255: which random number of the stream decides what when the map of a particle of `RFSPSOSLAM` moves.
-/

set_option linter.unusedSectionVars false

namespace RFS
namespace PSOProps
open PSO

variable {K : Type} [Field K] [LinearOrder K] [IsStrictOrderedRing K] {d : Nat}

open Classical in
/-- Specification: the position in the stream of the first number used for landmark `i`, and that of the first number used for its attraction by the best map of the neighbourhood. A landmark uses a
number for its removal, one for each component of its velocity if it is matched with the particle's best map, and then one for each component if it is matched with the best map of the neighbourhood and
one for its removal if not. -/
noncomputable def used (c : K) (dist : (Fin d → K) → (Fin d → K) → K) (own glob : List (Fin d → K)) (sp sg : Nat → Nat) (lm : Fin d → K) (i : Nat) : Nat × Nat :=
  (1 + if Near c dist own (sp i) lm then d else 0, if Near c dist glob (sg i) lm then d else 1)

noncomputable def first (c : K) (dist : (Fin d → K) → (Fin d → K) → K) (own glob lms : List (Fin d → K)) (sp sg : Nat → Nat) (pos : Nat) : Nat → Nat
  | 0 => pos
  | i + 1 =>
    let u := used c dist own glob sp sg (lms.getD i 0) i
    first c dist own glob lms sp sg pos i + u.1 + u.2

noncomputable def second (c : K) (dist : (Fin d → K) → (Fin d → K) → K) (own glob lms : List (Fin d → K)) (sp sg : Nat → Nat) (pos i : Nat) : Nat :=
  first c dist own glob lms sp sg pos i + (used c dist own glob sp sg (lms.getD i 0) i).1

theorem own_exact (cfg : Cfg K) (dist : (Fin d → K) → (Fin d → K) → K) (rnd : Nat → K) (best : List (Fin d → K)) (j : Nat) (lm v : Fin d → K) (pos : Nat) :
    (ownPart cfg dist rnd best j lm v pos).1 = v + pull cfg.c dist best j cfg.phiP (fun k => rnd (pos + 1 + k)) lm ∧
    ((ownPart cfg dist rnd best j lm v pos).2.1 = true ↔ (Near cfg.c dist best j lm ∧ rnd pos < 1 / 20) ∨ (¬ Near cfg.c dist best j lm ∧ rnd pos < cfg.cardP)) ∧
    (open Classical in (ownPart cfg dist rnd best j lm v pos).2.2.2 = pos + (1 + if Near cfg.c dist best j lm then d else 0)) := by
  unfold ownPart pull Near
  cases h : best[j]? with
  | none => simp
  | some b =>
    by_cases hc : cfg.c ≤ dist b lm
    · simp [hc, not_lt.2 hc]
    · have hc' := not_le.1 hc
      simp only [hc, if_false, hc', if_true, Option.some.injEq, exists_eq_left', true_and, not_true_eq_false, false_and, or_false, decide_eq_true_eq]
      refine ⟨rfl, by omega⟩

theorem global_exact (cfg : Cfg K) (dist : (Fin d → K) → (Fin d → K) → K) (rnd : Nat → K) (best : List (Fin d → K)) (j : Nat) (lm v : Fin d → K) (pos : Nat) :
    (globalPart cfg dist rnd best j lm v pos).1 = v + pull cfg.c dist best j cfg.phiG (fun k => rnd (pos + k)) lm ∧
    ((globalPart cfg dist rnd best j lm v pos).2.1 = true ↔ ¬ Near cfg.c dist best j lm ∧ rnd pos < cfg.cardG) ∧
    (open Classical in (globalPart cfg dist rnd best j lm v pos).2.2.2 = pos + if Near cfg.c dist best j lm then d else 1) := by
  unfold globalPart pull Near
  cases h : best[j]? with
  | none => simp
  | some b =>
    by_cases hc : cfg.c ≤ dist b lm
    · simp [hc, not_lt.2 hc]
    · have hc' := not_le.1 hc
      simp only [hc, if_false, hc', if_true, Option.some.injEq, exists_eq_left', not_true_eq_false, false_and, iff_false]
      exact ⟨rfl, by simp, trivial⟩

/-- What the loop over the landmarks has done before landmark `k`. -/
theorem velLoop_exact (cfg : Cfg K) (dist : (Fin d → K) → (Fin d → K) → K) (rnd : Nat → K) (lms own glob vel : List (Fin d → K)) (sp sg : Nat → Nat) (pos : Nat)
    (hl : vel.length = lms.length) : ∀ k, k ≤ lms.length → ∀ s, (List.range k).foldlM (velStep cfg dist rnd lms own glob sp sg)
      ⟨vel, List.replicate lms.length false, List.replicate own.length true, List.replicate glob.length true, pos⟩ = some s →
      s.pos = first cfg.c dist own glob lms sp sg pos k ∧ s.vel.length = vel.length ∧ s.del.length = lms.length ∧ (∀ i, k ≤ i → s.vel[i]? = vel[i]?) ∧
      ∀ (i : Nat) (lm v : Fin d → K), i < k → lms[i]? = some lm → vel[i]? = some v →
        s.vel[i]? = some ((fun k => v k * cfg.w) + pull cfg.c dist own (sp i) cfg.phiP (fun k => rnd (first cfg.c dist own glob lms sp sg pos i + 1 + k)) lm +
          pull cfg.c dist glob (sg i) cfg.phiG (fun k => rnd (second cfg.c dist own glob lms sp sg pos i + k)) lm) ∧
        (s.del[i]? = some true ↔ (Near cfg.c dist own (sp i) lm ∧ rnd (first cfg.c dist own glob lms sp sg pos i) < 1 / 20) ∨
          (¬ Near cfg.c dist own (sp i) lm ∧ rnd (first cfg.c dist own glob lms sp sg pos i) < cfg.cardP) ∨
          (¬ Near cfg.c dist glob (sg i) lm ∧ rnd (second cfg.c dist own glob lms sp sg pos i) < cfg.cardG))
  | 0, _, s, h => by
    cases h
    refine ⟨rfl, rfl, by simp, fun _ _ => rfl, fun i lm v hi => by omega⟩
  | k + 1, hk, s', h => by
    rw [List.range_succ, List.foldlM_append] at h
    obtain ⟨s, hs, h⟩ := Option.bind_eq_some_iff.1 h
    obtain ⟨e1, e2, e3, e4, e5⟩ := velLoop_exact cfg dist rnd lms own glob vel sp sg pos hl k (by omega) s hs
    have hk' : k < lms.length := by omega
    obtain ⟨lm, hlm⟩ : ∃ lm, lms[k]? = some lm := ⟨_, List.getElem?_eq_getElem hk'⟩
    obtain ⟨v, hv⟩ : ∃ v, vel[k]? = some v := ⟨_, List.getElem?_eq_getElem (by omega)⟩
    have hsv : s.vel[k]? = some v := by rw [e4 k le_rfl, hv]
    have hget : lms.getD k 0 = lm := by rw [List.getD_eq_getElem?_getD, hlm]; rfl
    simp only [List.foldlM_cons, List.foldlM_nil, velStep, hlm, hsv] at h
    cases h
    obtain ⟨a1, a2, a3⟩ := own_exact cfg dist rnd own (sp k) lm (fun k => v k * cfg.w) s.pos
    set a := ownPart cfg dist rnd own (sp k) lm (fun k => v k * cfg.w) s.pos
    obtain ⟨b1, b2, b3⟩ := global_exact cfg dist rnd glob (sg k) lm a.1 a.2.2.2
    set b := globalPart cfg dist rnd glob (sg k) lm a.1 a.2.2.2
    have hsec : a.2.2.2 = second cfg.c dist own glob lms sp sg pos k := by
      rw [a3, e1, second, hget]; rfl
    refine ⟨?_, by simp [e2], by simp [e3], fun i hi => ?_, fun i lm' v' hi h1 h2 => ?_⟩
    · show b.2.2.2 = _
      rw [b3, hsec, first, second, hget]
      rfl
    · rw [List.getElem?_set_ne (by omega)]
      exact e4 i (by omega)
    · by_cases hik : i = k
      · subst hik
        rw [hlm] at h1; cases h1
        rw [hv] at h2; cases h2
        constructor
        · rw [List.getElem?_set_self (by omega), b1, a1, hsec, e1]
        · rw [List.getElem?_set_self (by omega), Option.some.injEq, Bool.or_eq_true, a2, b2, hsec, e1, or_assoc]
      · obtain ⟨h3, h4⟩ := e5 i lm' v' (by omega) h1 h2
        rw [List.getElem?_set_ne (by omega), List.getElem?_set_ne (by omega)]
        exact ⟨h3, h4⟩

/-- Specification: the flagged indices below `m`, and those of them whose random number, taken from position `p` on one after the other, is below `card`. -/
def chosen (card : K) (rnd : Nat → K) (p : Nat) (l : List Nat) : List Nat := (l.zipIdx p).filterMap fun x => if rnd x.2 < card then some x.1 else none

theorem chosen_append (card : K) (rnd : Nat → K) (p : Nat) (l : List Nat) (j : Nat) :
    chosen card rnd p (l ++ [j]) = chosen card rnd p l ++ if rnd (p + l.length) < card then [j] else [] := by
  unfold chosen
  rw [List.zipIdx_append, List.filterMap_append]
  congr 1
  simp only [List.zipIdx_cons, List.zipIdx_nil, List.filterMap_cons, List.filterMap_nil]
  split <;> split <;> simp_all

theorem addLoop_exact {α : Type} (card : K) (rnd : Nat → K) (flags : List Bool) (best bestVel : List α) (hl : bestVel.length = best.length) (l v : List α) (pos : Nat) :
    let U := (List.range best.length).filter fun j => decide (flags[j]? = some true)
    addLoop card rnd flags best bestVel (l, v, pos) =
      some (l ++ (chosen card rnd pos U).filterMap (best[·]?), v ++ (chosen card rnd pos U).filterMap (bestVel[·]?), pos + U.length) := by
  suffices h : ∀ m, m ≤ best.length → (List.range m).foldlM (fun (s : List α × List α × Nat) i =>
    if flags[i]? = some true then
      (if rnd s.2.2 < card then
        match best[i]?, bestVel[i]? with
        | some b, some v => some (s.1 ++ [b], s.2.1 ++ [v], s.2.2 + 1)
        | _, _ => none
      else some (s.1, s.2.1, s.2.2 + 1))
    else some s) (l, v, pos) =
      some (l ++ (chosen card rnd pos ((List.range m).filter fun j => decide (flags[j]? = some true))).filterMap (best[·]?),
        v ++ (chosen card rnd pos ((List.range m).filter fun j => decide (flags[j]? = some true))).filterMap (bestVel[·]?),
        pos + ((List.range m).filter fun j => decide (flags[j]? = some true)).length) from h _ le_rfl
  intro m
  induction m with
  | zero => intro _; simp [chosen]
  | succ m ih =>
    intro hm
    rw [List.range_succ, List.foldlM_append, ih (by omega), List.filter_append]
    simp only [Option.bind_eq_bind, Option.bind_some, List.foldlM_cons, List.foldlM_nil]
    have h1 : best[m]? = some best[m] := List.getElem?_eq_getElem (by omega)
    have h2 : bestVel[m]? = some (bestVel[m]'(by omega)) := List.getElem?_eq_getElem (by omega)
    by_cases hf : flags[m]? = some true
    · simp only [hf, if_true, decide_true, List.filter_cons_of_pos, List.filter_nil, chosen_append, List.length_append, List.length_singleton]
      by_cases hr : rnd (pos + ((List.range m).filter fun j => decide (flags[j]? = some true)).length) < card
      · simp only [hr, if_true, h1, h2, Option.bind_some, List.filterMap_append, List.filterMap_cons, List.filterMap_nil]
        simp [Nat.add_assoc]
      · simp only [hr, if_false, Option.bind_some, List.append_nil]
        simp [Nat.add_assoc]
    · simp [hf]

open Classical in
/-- Specification: the landmarks of a best map that no landmark is matched with. -/
noncomputable def unmatched (c : K) (dist : (Fin d → K) → (Fin d → K) → K) (best lms : List (Fin d → K)) (sp : Nat → Nat) : List Nat :=
  (List.range best.length).filter fun j => decide (∀ (i : Nat) (lm : Fin d → K), lms[i]? = some lm → sp i = j → ¬ Near c dist best j lm)

/-- **C255**: every decision in `updateLandmarkVelocity` has a number of its own. Landmark `i` uses those from position `first i` on: one for its removal (by the probability that applies to a landmark with or without
a match), one for each component of the pull of its match, then those from `second i` on for the match in the neighbourhood or the removal without one. After the last landmark come the numbers for the unmatched
landmarks of the two best maps, one for each. -/
theorem C255_draws (cfg : Cfg K) (dist : (Fin d → K) → (Fin d → K) → K) (rnd : Nat → K) (sp sg : Nat → Nat) (own ownVel glob globVel : List (Fin d → K))
    (lms vel : List (Fin d → K)) (pos : Nat) (hv : vel.length = lms.length) (ho : ownVel.length = own.length) (hg : globVel.length = glob.length) :
    let F := first cfg.c dist own glob lms sp sg pos
    let S := second cfg.c dist own glob lms sp sg pos
    let UP := unmatched cfg.c dist own lms sp
    let UG := unmatched cfg.c dist glob lms sg
    let cP := chosen cfg.cardP rnd (F lms.length) UP
    let cG := chosen cfg.cardG rnd (F lms.length + UP.length) UG
    ∃ (l' v' : List (Fin d → K)) (del : Nat → Prop) (nv : List (Fin d → K)) (kept : List ((Fin d → K) × (Fin d → K))),
      updateVel cfg dist rnd sp sg own ownVel glob globVel lms vel pos = some (l', v', F lms.length + UP.length + UG.length) ∧ l'.length = v'.length ∧ nv.length = lms.length ∧
      l'.zip v' = kept ++ (cP.filterMap (own[·]?)).zip (cP.filterMap (ownVel[·]?)) ++ (cG.filterMap (glob[·]?)).zip (cG.filterMap (globVel[·]?)) ∧
      (open Classical in kept.Perm (((lms.zip nv).zipIdx.filter fun x => decide (¬ del x.2)).map Prod.fst)) ∧
      ∀ (i : Nat) (lm v : Fin d → K), lms[i]? = some lm → vel[i]? = some v →
        nv[i]? = some ((fun k => v k * cfg.w) + pull cfg.c dist own (sp i) cfg.phiP (fun k => rnd (F i + 1 + k)) lm + pull cfg.c dist glob (sg i) cfg.phiG (fun k => rnd (S i + k)) lm) ∧
        (del i ↔ (Near cfg.c dist own (sp i) lm ∧ rnd (F i) < 1 / 20) ∨ (¬ Near cfg.c dist own (sp i) lm ∧ rnd (F i) < cfg.cardP) ∨ (¬ Near cfg.c dist glob (sg i) lm ∧ rnd (S i) < cfg.cardG)) := by
  intro F S UP UG cP cG
  obtain ⟨s, hs, hi⟩ := velLoop cfg dist rnd lms own glob vel sp sg pos hv lms.length le_rfl
  obtain ⟨e1, e2, e3, -, e5⟩ := velLoop_exact cfg dist rnd lms own glob vel sp sg pos hv lms.length le_rfl s hs
  have hsl : s.vel.length = lms.length := hi.lv.trans hv
  obtain ⟨hr1, hr2⟩ := C55_removal s.del lms s.vel hsl
  set r := removeLoop s.del lms.length (lms, s.vel) with hr
  have bnd : ∀ {α : Type} (l : List α) (i : Nat) (x : α), l[i]? = some x → i < l.length := fun l i x h => (List.getElem?_eq_some_iff.1 h).1
  have hUP : (List.range own.length).filter (fun j => decide (s.addP[j]? = some true)) = UP := by
    show _ = unmatched _ _ _ _ _
    unfold unmatched
    apply List.filter_congr
    intro j hj
    rw [decide_eq_decide, hi.aP j]
    exact ⟨fun h i lm h1 h2 => h.2 i lm (bnd _ _ _ h1) h1 h2, fun h => ⟨List.mem_range.1 hj, fun i lm _ h1 h2 => h i lm h1 h2⟩⟩
  have hUG : (List.range glob.length).filter (fun j => decide (s.addG[j]? = some true)) = UG := by
    show _ = unmatched _ _ _ _ _
    unfold unmatched
    apply List.filter_congr
    intro j hj
    rw [decide_eq_decide, hi.aG j]
    exact ⟨fun h i lm h1 h2 => h.2 i lm (bnd _ _ _ h1) h1 h2, fun h => ⟨List.mem_range.1 hj, fun i lm _ h1 h2 => h i lm h1 h2⟩⟩
  have a1 := addLoop_exact cfg.cardP rnd s.addP own ownVel ho r.1 r.2 s.pos
  simp only [hUP, e1] at a1
  have b1 := addLoop_exact cfg.cardG rnd s.addG glob globVel hg (r.1 ++ cP.filterMap (own[·]?)) (r.2 ++ cP.filterMap (ownVel[·]?)) (F lms.length + UP.length)
  simp only [hUG] at b1
  have len : ∀ (ch : List Nat) (a b : List (Fin d → K)), b.length = a.length → (ch.filterMap (a[·]?)).length = (ch.filterMap (b[·]?)).length := by
    intro ch a b hab
    induction ch with
    | nil => rfl
    | cons c ch ih =>
      by_cases hc : c < a.length
      · have h1 : a[c]? = some a[c] := List.getElem?_eq_getElem hc
        have h2 : b[c]? = some b[c] := List.getElem?_eq_getElem (by omega)
        simp [h1, h2, ih]
      · have h1 : a[c]? = none := List.getElem?_eq_none (by omega)
        have h2 : b[c]? = none := List.getElem?_eq_none (by omega)
        simp [h1, h2, ih]
  have lP := len cP own ownVel ho
  have lG := len cG glob globVel hg
  refine ⟨r.1 ++ cP.filterMap (own[·]?) ++ cG.filterMap (glob[·]?), r.2 ++ cP.filterMap (ownVel[·]?) ++ cG.filterMap (globVel[·]?), fun i => s.del[i]? = some true, s.vel, r.1.zip r.2, ?_, ?_, hsl, ?_, ?_, ?_⟩
  · unfold updateVel
    rw [hs]
    simp only [Option.bind_some]
    rw [← hr, e1, a1]
    simp only [Option.bind_some]
    exact b1
  · simp only [List.length_append, hr1, lP, lG]
  · rw [List.zip_append (by simp only [List.length_append, hr1, lP]), List.zip_append hr1]
  · convert hr2 using 5
  · intro i lm v h1 h2
    exact e5 i lm v (bnd _ _ _ h1) h1 h2

/-- **C255**, no number is used twice: landmark `i` uses the positions from `first i` up to `first (i + 1)`, and `second i` is between. -/
theorem C255_fresh (c : K) (dist : (Fin d → K) → (Fin d → K) → K) (own glob lms : List (Fin d → K)) (sp sg : Nat → Nat) (pos i : Nat) :
    let F := first c dist own glob lms sp sg pos
    let S := second c dist own glob lms sp sg pos
    F i < S i ∧ S i ≤ F (i + 1) ∧ (Near c dist own (sp i) (lms.getD i 0) → F i + 1 + d ≤ S i) ∧ (Near c dist glob (sg i) (lms.getD i 0) → S i + d ≤ F (i + 1)) ∧
      (¬ Near c dist glob (sg i) (lms.getD i 0) → S i < F (i + 1)) := by
  intro F S
  have hS : S i = F i + (used c dist own glob sp sg (lms.getD i 0) i).1 := rfl
  have hF : F (i + 1) = F i + (used c dist own glob sp sg (lms.getD i 0) i).1 + (used c dist own glob sp sg (lms.getD i 0) i).2 := rfl
  rw [hF, hS]
  unfold used
  refine ⟨by simp only; omega, by omega, fun h => by simp only [h, if_true]; omega, fun h => by simp only [h, if_true]; omega, fun h => by simp only [h, if_false]; omega⟩

/-- Two landmarks on a line, the first matched: it uses three numbers, the second two, and an unmatched landmark of the best map one. Removal of the second landmark hangs on the fourth number. -/
example : (updateVel (K := ℚ) (d := 1) ⟨5, 1 / 2, 1, 1 / 2, 1, 1 / 2⟩ (fun a b => |a 0 - b 0|) (fun k => if k = 3 then 1 / 4 else 3 / 4) (fun i => 1 - i) (fun i => 1 - i)
    [![50], ![1]] [![7], ![8]] [![50], ![1]] [![7], ![8]] [![0], ![100]] [![2], ![3]] 0).map (fun r => (r.1.map (· 0), r.2.1.map (· 0), r.2.2)) =
    some ([0], [5 / 2], 7) := by decide +kernel

end PSOProps
end RFS
