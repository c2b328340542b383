import Verif.Lemmas.GMHeap
import Verif.Props.GaussianMixture

/-!
Properties C26 and C69: memory behaviour of `GaussianMixture` copies.

Specification: a program is a list of calls on several mixtures sharing one heap. What a mixture reports is `view` (count, weights,
landmark values). A call may change only its targets.
-/

set_option linter.unusedSectionVars false

namespace RFS
namespace GMHeapProps
open GM
open GMHeap hiding IsSort merge prune addGaussian removeGaussian setWeight updateGaussian merge2 multiplyWeights sortByWeight getWeightSum normalizeWeights addGM removeFrom mergeInner mergeOuter

variable {K : Type*} [Field K] [LinearOrder K] [IsStrictOrderedRing K] {d : Nat}

/-- Specification: the mixtures a command is allowed to change. -/
def targets : Cmd K d → List Nat
  | .on k _ => [k]
  | .construct => []
  | .copyCtor _ => []
  | .copyTo _ l => [l]
  | .addGM k l _ => [k, l]
  | .destroy k => [k]

/-- The sorting functions in a command meet the contract of `std::sort`. -/
def SortsOK : Cmd K d → Prop
  | .on _ (.sort srt) => GMHeap.IsSort srt
  | .on _ (.prune srt _) => GMHeap.IsSort srt
  | _ => True

/-- Specification: what mixture `l` reports. -/
def report (W : World K d) (l : Nat) : Option (GMix K d) := (W.objs[l]?).map (view W.heap)

/-- Specification: the start of a program. -/
def start : World K d := ⟨⟨fun _ => none, 0⟩, []⟩

theorem start_wf : WF (start : World K d) :=
  ⟨fun _ _ => rfl, by simp [start], by simp [start], by simp [start]⟩

theorem report_of_step {W : World K d} {k : Nat} {o' : Mix K} {h' : Heap K d}
    (hv : ∀ (l : Nat) (ol : Mix K), l ≠ k → W.objs[l]? = some ol → view h' ol = view W.heap ol) (l : Nat) (hl : l ≠ k) :
    report (⟨h', W.objs.set k o'⟩ : World K d) l = report W l := by
  unfold report
  simp only
  rw [List.getElem?_set_ne (Ne.symm hl)]
  cases hol : W.objs[l]? with
  | none => rfl
  | some ol => simp only [Option.map_some]; rw [hv l ol hl hol]

theorem addGM_wf {W : World K d} (hW : WF W) {k l : Nat} {a b : Mix K} (hkl : k ≠ l) (hk : W.objs[k]? = some a)
    (hl : W.objs[l]? = some b) (w : K) :
    WF (⟨W.heap, (W.objs.set k (GMHeap.addGM W.heap a b w).2.1).set l (GMHeap.addGM W.heap a b w).2.2⟩ : World K d) := by
  have hkl' := (List.getElem?_eq_some_iff.1 hk).1
  have hll' := (List.getElem?_eq_some_iff.1 hl).1
  have e1 : ptrs (GMHeap.addGM W.heap a b w).2.1.g = ptrs a.g ++ ptrs b.g := by
    simp only [GMHeap.addGM, ptrs, List.filterMap_append]
    congr 1
    exact ptrs_map (fun e => rfl)
  have e2 : ptrs (GMHeap.addGM W.heap a b w).2.2.g = [] := rfl
  generalize (GMHeap.addGM W.heap a b w).2.1 = a' at e1 ⊢
  generalize (GMHeap.addGM W.heap a b w).2.2 = b' at e2 ⊢
  have hcases : ∀ (x : Nat) (ox : Mix K), ((W.objs.set k a').set l b')[x]? = some ox →
      (x = k ∧ ox = a') ∨ (x = l ∧ ox = b') ∨ (x ≠ k ∧ x ≠ l ∧ W.objs[x]? = some ox) := by
    intro x ox h
    by_cases h1 : l = x
    · subst h1
      rw [List.getElem?_set_self (by simpa using hll')] at h
      cases h; exact Or.inr (Or.inl ⟨rfl, rfl⟩)
    · rw [List.getElem?_set_ne h1] at h
      by_cases h2 : k = x
      · subst h2
        rw [List.getElem?_set_self hkl'] at h
        cases h; exact Or.inl ⟨rfl, rfl⟩
      · rw [List.getElem?_set_ne h2] at h
        exact Or.inr (Or.inr ⟨Ne.symm h2, Ne.symm h1, h⟩)
  refine ⟨hW.hok, ?_, ?_, ?_⟩
  · intro x ox h
    rcases hcases x ox h with ⟨rfl, rfl⟩ | ⟨rfl, rfl⟩ | ⟨-, -, h⟩
    · refine ⟨?_, ?_⟩
      · rw [e1, List.nodup_append]
        refine ⟨(hW.own _ _ hk).nodup, (hW.own _ _ hl).nodup, ?_⟩
        intro p hp q hq hpq
        subst hpq
        exact hW.disj _ _ a b hkl hk hl p hp hq
      · intro p hp
        rw [e1, List.mem_append] at hp
        rcases hp with hp | hp
        · exact (hW.own _ _ hk).live p hp
        · exact (hW.own _ _ hl).live p hp
    · exact ⟨by rw [e2]; simp, by rw [e2]; simp⟩
    · exact hW.own x ox h
  · intro x y ox oy hxy hx hy p hp hpy
    rcases hcases x ox hx with ⟨rfl, rfl⟩ | ⟨rfl, rfl⟩ | ⟨hx1, hx2, hx3⟩
    · rcases hcases y oy hy with ⟨rfl, rfl⟩ | ⟨rfl, rfl⟩ | ⟨hy1, hy2, hy3⟩
      · exact hxy rfl
      · rw [e2] at hpy; simp at hpy
      · rw [e1, List.mem_append] at hp
        rcases hp with hp | hp
        · exact hW.disj _ _ a oy (Ne.symm hy1) hk hy3 p hp hpy
        · exact hW.disj _ _ b oy (Ne.symm hy2) hl hy3 p hp hpy
    · rw [e2] at hp; simp at hp
    · rcases hcases y oy hy with ⟨rfl, rfl⟩ | ⟨rfl, rfl⟩ | ⟨hy1, hy2, hy3⟩
      · rw [e1, List.mem_append] at hpy
        rcases hpy with hpy | hpy
        · exact hW.disj _ _ ox a hx1 hx3 hk p hp hpy
        · exact hW.disj _ _ ox b hx2 hx3 hl p hp hpy
      · rw [e2] at hpy; simp at hpy
      · exact hW.disj x y ox oy hxy hx3 hy3 p hp hpy
  · intro p hp
    obtain ⟨x, ox, hx, hpx⟩ := hW.owned p hp
    have hka : ((W.objs.set k a').set l b')[k]? = some a' := by
      rw [List.getElem?_set_ne (Ne.symm hkl), List.getElem?_set_self hkl']
    by_cases h1 : x = k
    · subst h1
      rw [hk] at hx; cases hx
      exact ⟨x, a', hka, by rw [e1]; exact List.mem_append_left _ hpx⟩
    · by_cases h2 : x = l
      · subst h2
        rw [hl] at hx; cases hx
        exact ⟨k, a', hka, by rw [e1]; exact List.mem_append_right _ hpx⟩
      · exact ⟨x, ox, by rw [List.getElem?_set_ne (Ne.symm h2), List.getElem?_set_ne (Ne.symm h1)]; exact hx, hpx⟩

theorem clone_good {g : List (Ent K)} {h : Heap K d} (hk : HeapOK h) (hl : ∀ p ∈ ptrs g, (h.cells p).isSome) :
    ∃ h' g', cloneSome g h = some (h', g') ∧ Good h [] h' g' ∧ g'.map (ent h') = g.map (ent h) := by
  obtain ⟨h', g', a1, a2, a3, a4, a5, a6, a7, a8⟩ := cloneSome_spec g h hk hl
  refine ⟨h', g', a1, ⟨a2, ⟨a4, fun p hp => (a5 p hp).2⟩, a3, fun p hp => Or.inr (a5 p hp).1, fun p hp _ => a6 p hp, ?_⟩, a8⟩
  intro p hp
  by_cases hlt : p < h.next
  · right
    rw [a6 p hlt] at hp
    exact ⟨by simp [ptrs], hlt, hp⟩
  · exact Or.inl (a7 p (by omega) hp)

theorem cloneAll_none {g : List (Ent K)} : ∀ {h : Heap K d} {r}, cloneAll g h = some r → ∀ e ∈ g, e.ptr.isSome := by
  induction g with
  | nil => intro h r _ e he; simp at he
  | cons a g ih =>
    intro h r hr e he
    unfold cloneAll at hr
    cases hp : a.ptr with
    | none => rw [hp] at hr; cases hr
    | some p =>
      rw [hp] at hr
      simp only at hr
      cases hv : h.cells p with
      | none => rw [hv] at hr; cases hr
      | some v =>
        rw [hv] at hr
        simp only at hr
        cases hc : cloneAll g (h.alloc v) with
        | none => rw [hc] at hr; cases hr
        | some r' =>
          rcases List.mem_cons.1 he with rfl | he
          · rw [hp]; rfl
          · exact ih hc e he

/-- One command: memory stays in order, and only the targets change. -/
theorem run_spec {W W' : World K d} (hW : WF W) {c : Cmd K d} (hs : SortsOK c) (e : run W c = some W') :
    WF W' ∧ ∀ l, l < W.objs.length → l ∉ targets c → report W' l = report W l := by
  cases c with
  | on k c =>
    simp only [run] at e
    cases hk : W.objs[k]? with
    | none => rw [hk] at e; cases e
    | some o =>
      rw [hk] at e
      simp only at e
      cases hc : call W.heap o c with
      | none => rw [hc] at e; cases e
      | some r =>
        rw [hc] at e; cases e
        have hg := call_good (h' := r.1) (o' := r.2) hW.hok (hW.own k o hk) (c := c) (by
          rintro srt (rfl | ⟨t, rfl⟩)
          · exact hs
          · exact hs) hc
        obtain ⟨s1, s2⟩ := hW.step hk hg
        exact ⟨s1, fun l _ hl => report_of_step s2 l (by simpa [targets] using hl)⟩
  | construct =>
    cases e
    refine ⟨hW.push_empty _ rfl, ?_⟩
    intro l hl _
    unfold report
    simp only
    rw [List.getElem?_append_left hl]
  | copyCtor k =>
    simp only [run] at e
    cases hk : W.objs[k]? with
    | none => rw [hk] at e; cases e
    | some o =>
      rw [hk] at e
      simp only [copyCtor] at e
      cases hc : cloneAll o.g W.heap with
      | none => rw [hc] at e; cases e
      | some r =>
        rw [hc] at e
        cases e
        have hall := cloneAll_none hc
        rw [cloneAll_eq o.g W.heap hall] at hc
        obtain ⟨h', g', a1, a2, a3⟩ := clone_good hW.hok (hW.own k o hk).live
        rw [a1] at hc; cases hc
        have hp := hW.push_empty ⟨0, [], false⟩ rfl
        have hstep := hp.step (k := W.objs.length) (o := ⟨0, [], false⟩) (o' := ⟨o.n, g', o.sorted⟩) (h' := h')
          (by simp) a2
        have hset : (W.objs ++ [(⟨0, [], false⟩ : Mix K)]).set W.objs.length ⟨o.n, g', o.sorted⟩ = W.objs ++ [⟨o.n, g', o.sorted⟩] := by
          simp
        simp only [hset] at hstep
        refine ⟨hstep.1, ?_⟩
        intro l hl _
        unfold report
        simp only
        rw [List.getElem?_append_left hl]
        cases hol : W.objs[l]? with
        | none => rfl
        | some ol =>
          simp only [Option.map_some]
          rw [hstep.2 l ol (by omega) (by rw [List.getElem?_append_left hl]; exact hol)]
  | copyTo k l =>
    simp only [run] at e
    cases hk : W.objs[k]? with
    | none => rw [hk] at e; cases e
    | some a =>
      cases hl : W.objs[l]? with
      | none => rw [hk, hl] at e; cases e
      | some b =>
        rw [hk, hl] at e
        simp only at e
        by_cases hkl : k = l
        · subst hkl
          rw [hk] at hl; cases hl
          -- self copy succeeds only without Gaussians
          have ha := hW.own k a hk
          obtain ⟨h1, f1, f2, f3, f4, f5⟩ := freeAll_spec a.g W.heap hW.hok ha.nodup ha.live
          have hempty : ptrs a.g = [] := by
            by_contra hne
            simp only [copyTo, f1] at e
            have hnone : ∀ (g : List (Ent K)) (h : Heap K d), ptrs g ≠ [] → (∀ p ∈ ptrs g, h.cells p = none) → cloneSome g h = none := by
              intro g
              induction g with
              | nil => intro h hg _; exact absurd rfl hg
              | cons x g ih =>
                intro h hg hd
                unfold cloneSome
                cases hp : x.ptr with
                | none =>
                  have e1 : ptrs (x :: g) = ptrs g := by simp [ptrs, hp]
                  rw [e1] at hg hd
                  simp only
                  rw [ih h hg hd]
                | some p =>
                  have e1 : ptrs (x :: g) = p :: ptrs g := by simp [ptrs, hp]
                  simp only
                  rw [hd p (by rw [e1]; simp)]
            rw [hnone a.g h1 hne f5] at e
            cases e
          obtain ⟨h', o', c1, c2, c3⟩ := copyTo_spec hW.hok ha ha (by rw [hempty]; simp)
          rw [c1] at e; cases e
          obtain ⟨s1, s2⟩ := hW.step hk c2
          exact ⟨s1, fun l _ hl => report_of_step s2 l (by simpa [targets] using hl)⟩
        · obtain ⟨h', o', c1, c2, c3⟩ := copyTo_spec hW.hok (hW.own k a hk) (hW.own l b hl) (hW.disj k l a b hkl hk hl)
          rw [c1] at e; cases e
          obtain ⟨s1, s2⟩ := hW.step hl c2
          exact ⟨s1, fun l _ hl => report_of_step s2 l (by simpa [targets] using hl)⟩
  | addGM k l w =>
    simp only [run] at e
    cases hk : W.objs[k]? with
    | none => rw [hk] at e; cases e
    | some a =>
      cases hl : W.objs[l]? with
      | none => rw [hk, hl] at e; cases e
      | some b =>
        rw [hk, hl] at e
        simp only at e
        by_cases hkl : k = l
        · rw [if_pos hkl] at e; cases e
        · rw [if_neg hkl] at e; cases e
          refine ⟨addGM_wf hW hkl hk hl w, ?_⟩
          intro x hx hxt
          simp only [targets, List.mem_cons, List.not_mem_nil, or_false, not_or] at hxt
          unfold report
          simp only
          rw [List.getElem?_set_ne (Ne.symm hxt.2), List.getElem?_set_ne (Ne.symm hxt.1)]
          rfl
  | destroy k =>
    simp only [run] at e
    cases hk : W.objs[k]? with
    | none => rw [hk] at e; cases e
    | some o =>
      rw [hk] at e
      simp only [destroy] at e
      rcases removeFrom_sim (List.range o.g.length) hW.hok (hW.own k o hk) with ⟨r1, -⟩ | ⟨h1, o1, r1, -, r3⟩
      · rw [r1] at e; cases e
      · rw [r1] at e; cases e
        obtain ⟨s1, s2⟩ := hW.step hk r3
        exact ⟨s1, fun l _ hl => report_of_step s2 l (by simpa [targets] using hl)⟩

theorem run_length {W W' : World K d} {c : Cmd K d} (e : run W c = some W') : W.objs.length ≤ W'.objs.length := by
  cases c <;> simp only [run] at e
  case on k c =>
    cases hk : W.objs[k]? with
    | none => rw [hk] at e; cases e
    | some o =>
      rw [hk] at e
      simp only at e
      cases hc : call W.heap o c with
      | none => rw [hc] at e; cases e
      | some r => rw [hc] at e; cases e; simp
  case construct => cases e; simp
  case copyCtor k =>
    cases hk : W.objs[k]? with
    | none => rw [hk] at e; cases e
    | some o =>
      rw [hk] at e
      simp only at e
      cases hc : copyCtor W.heap o with
      | none => rw [hc] at e; cases e
      | some r => rw [hc] at e; cases e; simp
  case copyTo k l =>
    split at e
    · rename_i a b _ _
      cases hc : copyTo W.heap a b with
      | none => rw [hc] at e; cases e
      | some r => rw [hc] at e; cases e; simp
    · cases e
  case addGM k l w =>
    split at e
    · split at e
      · cases e
      · cases e; simp
    · cases e
  case destroy k =>
    cases hk : W.objs[k]? with
    | none => rw [hk] at e; cases e
    | some o =>
      rw [hk] at e
      simp only at e
      cases hc : destroy W.heap o with
      | none => rw [hc] at e; cases e
      | some r => rw [hc] at e; cases e; simp

theorem runAll_spec : ∀ {cs : List (Cmd K d)} {W W' : World K d}, WF W → (∀ c ∈ cs, SortsOK c) → runAll W cs = some W' →
    WF W' ∧ W.objs.length ≤ W'.objs.length ∧
      ∀ l, l < W.objs.length → (∀ c ∈ cs, l ∉ targets c) → report W' l = report W l
  | [], W, W', hW, _, e => by cases e; exact ⟨hW, le_rfl, fun _ _ _ => rfl⟩
  | c :: cs, W, W', hW, hs, e => by
    unfold runAll at e
    cases hr : run W c with
    | none => rw [hr] at e; cases e
    | some W1 =>
      rw [hr] at e
      obtain ⟨a1, a2⟩ := run_spec hW (hs c (by simp)) hr
      have hlen := run_length hr
      obtain ⟨b1, b2, b3⟩ := runAll_spec a1 (fun c hc => hs c (by simp [hc])) e
      refine ⟨b1, by omega, ?_⟩
      intro l hl ht
      rw [b3 l (by omega) (fun c hc => ht c (by simp [hc])), a2 l hl (ht c (by simp))]

/-- C26. Independence: after any program `pre` (which may contain any number of copies), a further program none of whose
commands has mixture `l` as target leaves everything mixture `l` reports unchanged. In particular changes to a copy never show in the
original and vice versa. -/
theorem C26_independent_partial {pre cs : List (Cmd K d)} {W W' : World K d} (hp : ∀ c ∈ pre, SortsOK c)
    (hs : ∀ c ∈ cs, SortsOK c) (e : runAll start pre = some W) (e' : runAll W cs = some W') (l : Nat) (hl : l < W.objs.length)
    (ht : ∀ c ∈ cs, l ∉ targets c) : report W' l = report W l :=
  (runAll_spec (runAll_spec start_wf hp e).1 hs e').2.2 l hl ht

/-- C26. `copyTo` between two different mixtures succeeds and the target then reports what the source reports; copy construction
does the same when the source has no removed entries. -/
theorem C26_copy_equal_partial {pre : List (Cmd K d)} {W : World K d} (hp : ∀ c ∈ pre, SortsOK c)
    (e : runAll start pre = some W) :
    (∀ k l, k < W.objs.length → l < W.objs.length → k ≠ l → ∃ W', run W (.copyTo k l) = some W' ∧
      report W' l = report W k ∧ report W' k = report W k) ∧
    (∀ (k : Nat) (o : Mix K), W.objs[k]? = some o → (∀ x ∈ o.g, x.ptr.isSome) → ∃ W', run W (.copyCtor k) = some W' ∧
      report W' W.objs.length = report W k ∧ report W' k = report W k) := by
  have hW := (runAll_spec start_wf hp e).1
  constructor
  · intro k l hk hl hkl
    obtain ⟨h', o', c1, c2, c3⟩ := copyTo_spec hW.hok (hW.own k _ (List.getElem?_eq_getElem hk)) (hW.own l _ (List.getElem?_eq_getElem hl))
      (hW.disj k l _ _ hkl (List.getElem?_eq_getElem hk) (List.getElem?_eq_getElem hl))
    have hrun : run W (.copyTo k l) = some ⟨h', W.objs.set l o'⟩ := by
      simp only [run, List.getElem?_eq_getElem hk, List.getElem?_eq_getElem hl, c1, Option.map_some]
    refine ⟨_, hrun, ?_, (run_spec hW (c := .copyTo k l) trivial hrun).2 k hk (by simpa [targets] using hkl)⟩
    unfold report
    simp only
    rw [List.getElem?_set_self hl, List.getElem?_eq_getElem hk]
    simp only [Option.map_some]
    rw [c3]
  · intro k o hk hall
    obtain ⟨h', g', a1, a2, a3⟩ := clone_good hW.hok (hW.own k o hk).live
    have hrun : run W (.copyCtor k) = some ⟨h', W.objs ++ [⟨o.n, g', o.sorted⟩]⟩ := by
      simp only [run, hk, copyCtor, cloneAll_eq o.g W.heap hall, a1, Option.map_some]
    refine ⟨_, hrun, ?_, (run_spec hW (c := .copyCtor k) trivial hrun).2 k (List.getElem?_eq_some_iff.1 hk).1 (by simp [targets])⟩
    unfold report
    simp only
    rw [hk]
    simp only [List.getElem?_concat_length, Option.map_some]
    exact congrArg (fun x => some (⟨o.n, x, o.sorted⟩ : GMix K d)) a3

/-- A program: two Gaussians, one removed. -/
def exProg : List (Cmd ℚ 1) :=
  [.construct, .on 0 (.add GMProps.lmA 1), .on 0 (.add GMProps.lmB 3), .on 0 (.remove 0)]

/-- C26 does not hold in full: copy construction of a mixture from which a Gaussian was removed (or merged away) dereferences a null
pointer. -/
theorem C26_copy_ctor_violated : ∃ W : World ℚ 1, runAll start exProg = some W ∧ run W (.copyCtor 0) = none := by
  have h : (match runAll (start : World ℚ 1) exProg with
    | some W => (run W (.copyCtor 0)).isNone
    | none => false) = true := by decide +kernel
  split at h
  · rename_i W hW
    exact ⟨W, hW, Option.isNone_iff_eq_none.1 h⟩
  · cases h

/-- C26 does not hold in full: copying a mixture onto itself (also through `GMBernoulliComponent::operator=`) reads freed memory. -/
theorem C26_self_copy_violated : ∃ W : World ℚ 1, runAll start (exProg.take 2) = some W ∧ run W (.copyTo 0 0) = none := by
  have h : (match runAll (start : World ℚ 1) (exProg.take 2) with
    | some W => (run W (.copyTo 0 0)).isNone
    | none => false) = true := by decide +kernel
  split at h
  · rename_i W hW
    exact ⟨W, hW, Option.isNone_iff_eq_none.1 h⟩
  · cases h

/-- Non-trivial instance of the hypotheses: a copy, then the copy is changed and the original keeps its count and weights. -/
example : ((runAll start (exProg ++ [.construct, .copyTo 0 1, .on 1 (.add GMProps.lmA 5), .on 1 (.setWeight 1 7)])).map fun W =>
    ((report W 0).map fun m => (m.n, m.g.map (·.w)), (report W 1).map fun m => (m.n, m.g.map (·.w)))) =
    some (some (1, [0, 3]), some (2, [0, 7, 5])) := by decide +kernel

/-- Specification: the accesses a caller must avoid. -/
def Misuse (W : World K d) : Cmd K d → Prop
  | .on k c => W.objs.length ≤ k ∨ ∃ o, W.objs[k]? = some o ∧ (match c with
      | .remove i => o.g.length ≤ i
      | .setWeight i _ => o.g.length ≤ i
      | .update i _ _ => i = o.g.length
      | _ => False)
  | .construct => False
  | .copyCtor k => W.objs.length ≤ k ∨ ∃ o, W.objs[k]? = some o ∧ ∃ x ∈ o.g, x.ptr = none
  | .copyTo k l => W.objs.length ≤ k ∨ W.objs.length ≤ l ∨ k = l
  | .addGM k l _ => W.objs.length ≤ k ∨ W.objs.length ≤ l ∨ k = l
  | .destroy k => W.objs.length ≤ k

theorem copyTo_reach {h : Heap K d} {o : Mix K} : GMProps.gaussians (view h o) =
    (o.g.filterMap fun e => (e.ptr.bind h.cells).map fun l => (l, e.w)) := by
  simp only [GMProps.gaussians, view, List.filterMap_map]
  rfl

theorem view_setWeight {h : Heap K d} {o : Mix K} {i : Nat} {w : K} {r : Heap K d × Mix K} (e : GMHeap.setWeight h o i w = some r) :
    GM.setWeight (view h o) i w = some (view r.1 r.2) := by
  simp only [GMHeap.setWeight] at e
  cases hi : o.g[i]? with
  | none => rw [hi] at e; cases e
  | some e0 =>
    rw [hi] at e; cases e
    simp only [GM.setWeight, view_g, List.getElem?_map, hi, Option.map_some]
    simp only [view, List.map_set]
    rfl

theorem view_update {h : Heap K d} {o : Mix K} (ho : Own h o.g) {i : Nat} {l : Lm K d} {w : K} {r : Bool × Heap K d × Mix K}
    (e : GMHeap.updateGaussian h o i l w = some r) : GM.updateGaussian (view h o) i l w = some (r.1, view r.2.1 r.2.2) := by
  simp only [GMHeap.updateGaussian] at e
  simp only [GM.updateGaussian, view_length]
  by_cases h0 : o.g.length < i
  · rw [if_pos h0] at e ⊢; cases e; rfl
  · rw [if_neg h0] at e ⊢
    rw [view_g, List.getElem?_map]
    cases hi : o.g[i]? with
    | none => rw [hi] at e; cases e
    | some e0 =>
      rw [hi] at e
      simp only [Option.map_some] at e ⊢
      cases hp : e0.ptr with
      | none =>
        rw [hp] at e; cases e
        have : (ent h e0).lm = none := by simp [ent, hp]
        simp only [this]
        rfl
      | some p =>
        rw [hp] at e
        obtain ⟨v, hv, hl⟩ := ent_lm_some ho hi hp
        simp only [Heap.write, hv] at e
        cases e
        simp only [hl]
        have := map_ent_set (e' := ⟨some p, if w < 0 then e0.w else w, e0.w⟩) ho hi hp
          ⟨Function.update h.cells p (some l), h.next⟩ (fun q hq => by simp [Function.update_apply, hq])
        unfold view
        simp only
        congr 3
        refine Eq.trans ?_ this.symm
        simp [ent]

theorem view_weightSum (h : Heap K d) (o : Mix K) : GM.getWeightSum (view h o) = GMHeap.getWeightSum o := by
  unfold GM.getWeightSum GMHeap.getWeightSum
  congr 1
  funext s i
  simp only [view, List.getElem?_map]
  cases o.g[i]? <;> rfl

theorem view_normalize {h : Heap K d} {o : Mix K} {r : Heap K d × Mix K} (e : GMHeap.normalizeWeights h o = some r) :
    GM.normalizeWeights (view h o) = some (view r.1 r.2) := by
  simp only [GMHeap.normalizeWeights] at e
  simp only [GM.normalizeWeights, view_weightSum]
  cases hs : GMHeap.getWeightSum o with
  | none => rw [hs] at e; cases e
  | some s =>
    rw [hs] at e; cases e
    simp only [view]
    congr 2
    apply List.ext_getElem
    · simp
    · intro i h1 h2
      simp only [List.getElem_mapIdx, List.getElem_map]
      split <;> rfl

/-- Every mixture of every program is, as a value, reachable in the sense of `GMProps.Reach`: the value-level properties
(C22, C23, C24, C25, C67, C68) speak about the memory-level code. -/
theorem reach_of_run : ∀ {cs : List (Cmd K d)} {W W' : World K d}, WF W →
    (∀ l m, report W l = some m → GMProps.Reach (fun _ => True) false m) → (∀ c ∈ cs, SortsOK c) → runAll W cs = some W' →
    ∀ l m, report W' l = some m → GMProps.Reach (fun _ => True) false m
  | [], W, W', _, hR, _, e => by cases e; exact hR
  | c :: cs, W, W', hW, hR, hs, e => by
    unfold runAll at e
    cases hr : run W c with
    | none => rw [hr] at e; cases e
    | some W1 =>
      rw [hr] at e
      have hsc := hs c (by simp)
      obtain ⟨a1, a2⟩ := run_spec hW hsc hr
      refine reach_of_run a1 ?_ (fun c hc => hs c (by simp [hc])) e
      -- a change at one place
      have hset : ∀ (k : Nat) (o' : Mix K) (h' : Heap K d), (∀ l, l < W.objs.length → l ≠ k → report (⟨h', W.objs.set k o'⟩ : World K d) l = report W l) →
          GMProps.Reach (fun _ => True) false (view h' o') →
          ∀ l m, report (⟨h', W.objs.set k o'⟩ : World K d) l = some m → GMProps.Reach (fun _ => True) false m := by
        intro k o' h' hsame hro l m hm
        by_cases hlk : l = k
        · subst hlk
          unfold report at hm
          simp only at hm
          by_cases hl : l < W.objs.length
          · rw [List.getElem?_set_self hl] at hm
            cases hm; exact hro
          · rw [List.getElem?_eq_none (by simpa using hl)] at hm; cases hm
        · by_cases hl : l < W.objs.length
          · exact hR l m (by rw [← hsame l hl hlk]; exact hm)
          · unfold report at hm
            simp only at hm
            rw [List.getElem?_eq_none (by simpa using hl)] at hm; cases hm
      have hRo : ∀ (k : Nat) (o : Mix K), W.objs[k]? = some o → GMProps.Reach (fun _ => True) false (view W.heap o) := by
        intro k o hk
        exact hR k _ (by simp [report, hk])
      cases c with
      | on k c =>
        simp only [run] at hr
        cases hk : W.objs[k]? with
        | none => rw [hk] at hr; cases hr
        | some o =>
          rw [hk] at hr
          simp only at hr
          cases hc : call W.heap o c with
          | none => rw [hc] at hr; cases hr
          | some r =>
            rw [hc] at hr; cases hr
            have hown := hW.own k o hk
            have hro := hRo k o hk
            refine hset k r.2 r.1 (fun l hl hlk => a2 l hl (by simpa [targets] using hlk)) ?_
            cases c with
            | add v w =>
              cases hc
              have hv : view (W.heap.alloc v) ⟨o.n + 1, o.g ++ [⟨some W.heap.next, w, 0⟩], false⟩ = GM.addGaussian (view W.heap o) v w := by
                unfold view GM.addGaussian
                simp only [List.map_append, List.map_cons, List.map_nil]
                congr 2
                · apply ent_congr
                  intro p hp
                  have := hW.hok.lt (hown.live p hp)
                  have hne : p ≠ W.heap.next := by omega
                  simp [Heap.alloc, Function.update_apply, hne]
                · simp [Heap.alloc]
              exact hv ▸ .add v w hro trivial
            | multiply w =>
              cases hc
              have hv : view W.heap { o with g := o.g.map fun e => { e with w := e.w * w } } = GM.multiplyWeights (view W.heap o) w := by
                unfold view GM.multiplyWeights
                simp only [List.map_map]
                rfl
              exact hv ▸ .multiply w hro trivial
            | remove i =>
              rcases removeGaussian_sim hW.hok hown i with ⟨r1, -⟩ | ⟨h1, o1, r1, r2, -⟩
              · simp only [call, r1] at hc; cases hc
              · simp only [call, r1] at hc; cases hc
                exact .remove i hro r2
            | setWeight i w => exact .setWeight i w hro trivial (by simp) (view_setWeight hc)
            | update i l w =>
              simp only [call] at hc
              cases hu : GMHeap.updateGaussian W.heap o i l w with
              | none => rw [hu] at hc; cases hc
              | some r' => rw [hu] at hc; cases hc; exact .update r'.1 i l w hro (view_update hown hu)
            | merge maha t f =>
              rcases merge_sim (maha := maha) (t := t) (f := f) hW.hok hown with ⟨r1, -⟩ | ⟨a, h1, o1, r1, r2, -⟩
              · simp only [call, r1] at hc; cases hc
              · simp only [call, r1] at hc; cases hc
                exact .merge maha t f a hro r2
            | sort srt =>
              cases hc
              have := (sort_sim hsc hW.hok hown).2.1
              simp only [GMHeap.sortByWeight] at this
              simp only [GMHeap.sortByWeight]
              rw [this]
              exact .sort _ (liftSort_isSort hsc _ _) hro
            | prune srt t =>
              rcases prune_sim hsc t hW.hok hown with ⟨r1, -⟩ | ⟨a, h1, o1, r1, r2, -⟩
              · simp only [call, r1] at hc; cases hc
              · simp only [call, r1] at hc; cases hc
                exact .prune _ (liftSort_isSort hsc _ _) t a hro r2
            | normalize => exact .normalize hro (by simp) (view_normalize hc)
      | construct =>
        cases hr
        intro l m hm
        unfold report at hm
        simp only at hm
        by_cases hl : l < W.objs.length
        · rw [List.getElem?_append_left hl] at hm; exact hR l m hm
        · rw [List.getElem?_append_right (by omega)] at hm
          cases hi : l - W.objs.length with
          | zero => rw [hi] at hm; cases hm; exact .empty
          | succ j => rw [hi] at hm; cases hm
      | copyCtor k =>
        simp only [run] at hr
        cases hk : W.objs[k]? with
        | none => rw [hk] at hr; cases hr
        | some o =>
          rw [hk] at hr
          simp only [copyCtor] at hr
          cases hc : cloneAll o.g W.heap with
          | none => rw [hc] at hr; cases hr
          | some r =>
            rw [hc] at hr
            cases hr
            rw [cloneAll_eq o.g W.heap (cloneAll_none hc)] at hc
            obtain ⟨h', g', b1, b2, b3⟩ := clone_good hW.hok (hW.own k o hk).live
            rw [b1] at hc; cases hc
            intro l m hm
            by_cases hl : l < W.objs.length
            · exact hR l m (by rw [← a2 l hl (by simp [targets])]; exact hm)
            · unfold report at hm
              simp only at hm
              rw [List.getElem?_append_right (by omega)] at hm
              cases hi : l - W.objs.length with
              | zero =>
                rw [hi] at hm; cases hm
                have : view h' ⟨o.n, g', o.sorted⟩ = view W.heap o :=
                  congrArg (fun x => (⟨o.n, x, o.sorted⟩ : GMix K d)) b3
                rw [this]
                exact hRo k o hk
              | succ j => rw [hi] at hm; cases hm
      | copyTo k l =>
        have hr' := hr
        simp only [run] at hr
        cases hk : W.objs[k]? with
        | none => rw [hk] at hr; cases hr
        | some a =>
          cases hl : W.objs[l]? with
          | none => rw [hk, hl] at hr; cases hr
          | some b =>
            rw [hk, hl] at hr
            simp only at hr
            cases hc : copyTo W.heap a b with
            | none => rw [hc] at hr; cases hr
            | some r =>
              rw [hc] at hr; cases hr
              refine hset l r.2 r.1 (fun x hx hxl => a2 x hx (by simpa [targets] using hxl)) ?_
              by_cases hkl : k = l
              · -- self copy: only without Gaussians
                subst hkl
                rw [hk] at hl; cases hl
                have ha := hW.own k a hk
                obtain ⟨h1, f1, f2, f3, f4, f5⟩ := freeAll_spec a.g W.heap hW.hok ha.nodup ha.live
                by_cases hempty : ptrs a.g = []
                · obtain ⟨h', o', c1, c2, c3⟩ := copyTo_spec hW.hok ha ha (by rw [hempty]; simp)
                  rw [c1] at hc; cases hc
                  rw [c3]; exact hRo k a hk
                · exfalso
                  simp only [copyTo, f1] at hc
                  have hnone : ∀ (g : List (Ent K)) (h : Heap K d), ptrs g ≠ [] → (∀ p ∈ ptrs g, h.cells p = none) → cloneSome g h = none := by
                    intro g
                    induction g with
                    | nil => intro h hg _; exact absurd rfl hg
                    | cons x g ih =>
                      intro h hg hd
                      unfold cloneSome
                      cases hp : x.ptr with
                      | none =>
                        have e1 : ptrs (x :: g) = ptrs g := by simp [ptrs, hp]
                        rw [e1] at hg hd
                        simp only
                        rw [ih h hg hd]
                      | some p =>
                        have e1 : ptrs (x :: g) = p :: ptrs g := by simp [ptrs, hp]
                        simp only
                        rw [hd p (by rw [e1]; simp)]
                  rw [hnone a.g h1 hempty f5] at hc
                  cases hc
              · obtain ⟨h', o', c1, c2, c3⟩ := copyTo_spec hW.hok (hW.own k a hk) (hW.own l b hl) (hW.disj k l a b hkl hk hl)
                rw [c1] at hc; cases hc
                rw [c3]; exact hRo k a hk
      | addGM k l w =>
        simp only [run] at hr
        cases hk : W.objs[k]? with
        | none => rw [hk] at hr; cases hr
        | some a =>
          cases hl : W.objs[l]? with
          | none => rw [hk, hl] at hr; cases hr
          | some b =>
            rw [hk, hl] at hr
            simp only at hr
            by_cases hkl : k = l
            · rw [if_pos hkl] at hr; cases hr
            · rw [if_neg hkl] at hr; cases hr
              have hkl' := (List.getElem?_eq_some_iff.1 hk).1
              have hll' := (List.getElem?_eq_some_iff.1 hl).1
              have hva : view W.heap (GMHeap.addGM W.heap a b w).2.1 = (GM.addGM (view W.heap a) (view W.heap b) w).1 := by
                unfold view GMHeap.addGM GM.addGM
                simp only [List.map_append, List.map_map]
                rfl
              have hvb : view W.heap (GMHeap.addGM W.heap a b w).2.2 = (GM.addGM (view W.heap a) (view W.heap b) w).2 := rfl
              intro x m hm
              unfold report at hm
              simp only [GMHeap.addGM] at hm hva hvb
              by_cases h1 : l = x
              · subst h1
                rw [List.getElem?_set_self (by simpa using hll')] at hm
                cases hm
                rw [hvb]
                exact .givenGM w (hRo k a hk) (hRo l b hl) trivial
              · rw [List.getElem?_set_ne h1] at hm
                by_cases h2 : k = x
                · subst h2
                  rw [List.getElem?_set_self hkl'] at hm
                  cases hm
                  rw [hva]
                  exact .addGM w (hRo k a hk) (hRo l b hl) trivial
                · rw [List.getElem?_set_ne h2] at hm
                  exact hR x m hm
      | destroy k =>
        simp only [run] at hr
        cases hk : W.objs[k]? with
        | none => rw [hk] at hr; cases hr
        | some o =>
          rw [hk] at hr
          simp only [destroy] at hr
          rcases removeFrom_sim (List.range o.g.length) hW.hok (hW.own k o hk) with ⟨r1, -⟩ | ⟨h1, o1, r1, r2, -⟩
          · rw [r1] at hr; cases hr
          · rw [r1] at hr; cases hr
            refine hset k o1 h1 (fun l hl hlk => a2 l hl (by simpa [targets] using hlk)) ?_
            have : ∀ (is : List Nat) (m m' : GMix K d), GMProps.Reach (fun _ => True) false m → GM.removeFrom m is = some m' →
                GMProps.Reach (fun _ => True) false m' := by
              intro is
              induction is with
              | nil => intro m m' hm he; cases he; exact hm
              | cons i is ih =>
                intro m m' hm he
                unfold GM.removeFrom at he
                cases hrm : GM.removeGaussian m i with
                | none => rw [hrm] at he; cases he
                | some m1 => rw [hrm] at he; exact ih m1 m' (.remove i hm hrm) he
            exact this _ _ _ (hRo k o hk) r2

/-- C22 at the level of memory: in every program, every mixture reports as its count the number of its Gaussians. -/
theorem C22_count_in_memory {cs : List (Cmd K d)} {W : World K d} (hs : ∀ c ∈ cs, SortsOK c) (e : runAll start cs = some W)
    (l : Nat) (m : GMix K d) (hm : report W l = some m) : getGaussianCount m = (GMProps.gaussians m).length :=
  (GMProps.C22_count (reach_of_run start_wf (by simp [start, report]) hs e l m hm)).1

/-- C69. Memory: in every program every live landmark belongs to exactly one entry of exactly one mixture (no leak, no sharing), and
undefined behaviour arises only from the listed misuses. -/
theorem C69_memory {cs : List (Cmd K d)} {W : World K d} (hs : ∀ c ∈ cs, SortsOK c) (e : runAll start cs = some W) :
    (∀ p, (W.heap.cells p).isSome ↔ ∃ (k : Nat) (o : Mix K), W.objs[k]? = some o ∧ ∃ x ∈ o.g, x.ptr = some p) ∧
    (∀ (k l i j : Nat) (o o' : Mix K) (x y : Ent K) (p : Nat), W.objs[k]? = some o → W.objs[l]? = some o' → o.g[i]? = some x → o'.g[j]? = some y →
      x.ptr = some p → y.ptr = some p → k = l ∧ i = j) ∧
    (∀ c, SortsOK c → ¬ Misuse W c → (run W c).isSome) := by
  have hW := (runAll_spec start_wf hs e).1
  have hR := reach_of_run start_wf (by simp [start, report]) hs e
  refine ⟨?_, ?_, ?_⟩
  · intro p
    constructor
    · intro hp
      obtain ⟨k, o, hk, hpo⟩ := hW.owned p hp
      obtain ⟨x, hx, hxp⟩ := List.mem_filterMap.1 hpo
      exact ⟨k, o, hk, x, hx, hxp⟩
    · rintro ⟨k, o, hk, x, hx, hxp⟩
      exact (hW.own k o hk).live p (List.mem_filterMap.2 ⟨x, hx, hxp⟩)
  · intro k l i j o o' x y p hk hl hi hj hx hy
    have hkl : k = l := by
      by_contra hkl
      exact hW.disj k l o o' hkl hk hl p (mem_ptrs hi hx) (mem_ptrs hj hy)
    subst hkl
    rw [hk] at hl; cases hl
    exact ⟨rfl, ptr_inj o.g i j x y p (hW.own k o hk).nodup hi hj hx hy⟩
  · intro c hsc hm
    have hget : ∀ k, ¬ W.objs.length ≤ k → ∃ o, W.objs[k]? = some o := fun k hk =>
      ⟨_, List.getElem?_eq_getElem (not_le.1 hk)⟩
    cases c with
    | on k c =>
      simp only [Misuse, not_or] at hm
      obtain ⟨o, hk⟩ := hget k hm.1
      have hm2 : ¬ _ := fun h => hm.2 ⟨o, hk, h⟩
      have hown := hW.own k o hk
      suffices h : (call W.heap o c).isSome by
        simp only [run, hk]
        obtain ⟨r, hr⟩ := Option.isSome_iff_exists.1 h
        rw [hr]; rfl
      cases c with
      | add v w => rfl
      | multiply w => rfl
      | remove i =>
        have hi : i < o.g.length := not_le.1 hm2
        rcases removeGaussian_sim hW.hok hown i with ⟨-, r2⟩ | ⟨h1, o1, r1, -, -⟩
        · rcases removeGaussian_cases (view W.heap o) i with ⟨a, -⟩ | ⟨_, -, -, a⟩ | ⟨_, _, -, -, a⟩
          · rw [view_length] at a; omega
          · rw [a] at r2; cases r2
          · rw [a] at r2; cases r2
        · simp only [call, r1]; rfl
      | setWeight i w =>
        have hi : i < o.g.length := not_le.1 hm2
        simp only [call, GMHeap.setWeight, List.getElem?_eq_getElem hi]
        rfl
      | update i l w =>
        have hi : i ≠ o.g.length := hm2
        simp only [call, GMHeap.updateGaussian]
        by_cases h0 : o.g.length < i
        · rw [if_pos h0]; rfl
        · rw [if_neg h0]
          have hil : i < o.g.length := by omega
          have hge := List.getElem?_eq_getElem hil
          rw [hge]
          simp only
          cases hp : (o.g[i]).ptr with
          | none => rfl
          | some p =>
            obtain ⟨v, hv, -⟩ := ent_lm_some hown hge hp
            simp [Heap.write, hv]
      | merge maha t f =>
        rcases merge_sim (maha := maha) (t := t) (f := f) hW.hok hown with ⟨-, r2⟩ | ⟨a, h1, o1, r1, -, -⟩
        · obtain ⟨k, m', h, -⟩ := GMProps.C23_merge_moments maha t f (view W.heap o)
          rw [h] at r2; cases r2
        · simp only [call, r1]; rfl
      | sort srt => rfl
      | prune srt t =>
        rcases prune_sim hsc t hW.hok hown with ⟨-, r2⟩ | ⟨a, h1, o1, r1, -, -⟩
        · obtain ⟨k, m', h, -⟩ := prune_spec (liftSort_isSort hsc W.heap o.g) t (view W.heap o)
          rw [h] at r2; cases r2
        · simp only [call, r1]; rfl
      | normalize =>
        have := (GMProps.C22_count (hR k (view W.heap o) (by simp [report, hk]))).2
        rw [view_weightSum] at this
        obtain ⟨s, hs⟩ := Option.isSome_iff_exists.1 this
        simp only [call, GMHeap.normalizeWeights, hs]
        rfl
    | construct => rfl
    | copyCtor k =>
      simp only [Misuse, not_or] at hm
      obtain ⟨o, hk⟩ := hget k hm.1
      have hall : ∀ x ∈ o.g, x.ptr.isSome := by
        intro x hx
        rw [Option.isSome_iff_ne_none]
        exact fun h => hm.2 ⟨o, hk, x, hx, h⟩
      obtain ⟨h', g', b1, -, -⟩ := clone_good hW.hok (hW.own k o hk).live
      simp only [run, hk, copyCtor, cloneAll_eq o.g W.heap hall, b1]
      rfl
    | copyTo k l =>
      simp only [Misuse, not_or] at hm
      obtain ⟨a, hk⟩ := hget k hm.1
      obtain ⟨b, hl⟩ := hget l hm.2.1
      obtain ⟨h', o', c1, -, -⟩ := copyTo_spec hW.hok (hW.own k a hk) (hW.own l b hl) (hW.disj k l a b hm.2.2 hk hl)
      simp only [run, hk, hl, c1]
      rfl
    | addGM k l w =>
      simp only [Misuse, not_or] at hm
      obtain ⟨a, hk⟩ := hget k hm.1
      obtain ⟨b, hl⟩ := hget l hm.2.1
      simp only [run, hk, hl, if_neg hm.2.2]
      rfl
    | destroy k =>
      obtain ⟨o, hk⟩ := hget k hm
      simp only [run, hk, destroy]
      rcases removeFrom_sim (List.range o.g.length) hW.hok (hW.own k o hk) with ⟨-, r2⟩ | ⟨h1, o1, r1, -, -⟩
      · obtain ⟨m', h, -⟩ := removeFrom_spec 0 (List.range o.g.length) (view W.heap o) (by
          intro i hi; rw [List.mem_range] at hi; rw [view_length]; exact ⟨Nat.zero_le _, hi⟩)
        rw [h] at r2; cases r2
      · rw [r1]; rfl

example : (runAll (start : World ℚ 1) exProg).isSome ∧ ∀ c ∈ exProg, SortsOK c := by
  refine ⟨by decide +kernel, ?_⟩
  intro c hc
  simp only [exProg, List.mem_cons, List.not_mem_nil, or_false] at hc
  rcases hc with rfl | rfl | rfl | rfl <;> trivial

end GMHeapProps
end RFS
