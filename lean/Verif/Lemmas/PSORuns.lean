import Verif.Model.PSORuns
import Verif.Props.PSO
import Verif.Props.Batch
import Mathlib.Algebra.Order.Floor.Semiring
import Mathlib.Algebra.Order.Field.Basic

/-!
Invariants of the runs of the particle swarm programs (`Verif.Model.PSORuns`).
-/

set_option linter.unusedSectionVars false

namespace RFS
namespace PSORuns
open PSO PSOProps

variable {K Λ Z : Type} {P d n : Nat}

theorem foldlM_keep {α β : Type} (f : β → α → Option β) (I : β → Prop) : ∀ (l : List α), (∀ s, I s → ∀ a ∈ l, ∃ t, f s a = some t ∧ I t) →
    ∀ s, I s → ∃ t, l.foldlM f s = some t ∧ I t
  | [], _, s, hs => ⟨s, rfl, hs⟩
  | a :: l, h, s, hs => by
    obtain ⟨t, e, ht⟩ := h s hs a (List.mem_cons_self ..)
    obtain ⟨r, e2, hr⟩ := foldlM_keep f I l (fun s hs a ha => h s hs a (List.mem_cons_of_mem _ ha)) t ht
    exact ⟨r, by rw [List.foldlM_cons, e]; exact e2, hr⟩

/-- A particle whose containers fit together and whose trajectory, velocity and best trajectory start at zero. -/
structure PGood [Zero K] (N : Nat) (p : Pt K Λ P d) : Prop where
  pos : p.traj.pos.length = N + 1
  vel : p.traj.vel.length = N + 1
  inp : p.traj.inp.length = N
  best : p.bestTraj.pos.length = N + 1
  fits : Fits p
  pos0 : p.traj.pos[0]? = some 0
  vel0 : p.traj.vel[0]? = some 0
  best0 : p.bestTraj.pos[0]? = some 0

/-- A topology of `n` particles. -/
def TopGood (n : Nat) (top : List (List Nat)) : Prop := top.length = n ∧ ∀ l ∈ top, ∀ j ∈ l, j < n

/-- A state between two calls. -/
structure SGood [Zero K] (N : Nat) (s : St K Λ P d n) : Prop where
  parts : ∀ i, PGood N (s.obj.parts i)
  top : TopGood n s.top
  bestP : s.obj.bestP.traj.pos = [] ∨ s.obj.bestP.traj.pos[0]? = some 0

section
variable [Field K] [LinearOrder K]

theorem along_length (step : (Fin P → K) → (Fin P → K) → Fin P → K) : ∀ (us : List (Fin P → K)) (x : Fin P → K), (along step x us).length = us.length + 1
  | [], _ => rfl
  | _ :: us, x => by simp [along, along_length step us]

theorem along_zero (step : (Fin P → K) → (Fin P → K) → Fin P → K) (us : List (Fin P → K)) (x : Fin P → K) : (along step x us)[0]? = some x := by
  cases us <;> rfl

theorem initLms_ok (inv : (Fin P → K) → Z → Fin d → K) (prob : K) (rnd : Nat → K) (pos : List (Fin P → K)) (Zs : List (List Z)) (rp : Nat) (h : pos.length ≤ Zs.length) :
    ∃ r, initLms inv prob rnd pos Zs rp = some r := by
  obtain ⟨t, e, -⟩ := foldlM_keep (fun (s : List (Fin d → K) × Nat) k =>
    match pos[k]?, Zs[k]? with
    | some x, some zs => some (zs.foldl (fun s z => (if rnd s.2 < prob then s.1 ++ [inv x z] else s.1, s.2 + 1)) s)
    | _, _ => none) (fun _ => True) (List.range pos.length) (fun s _ k hk => by
      have hk' := List.mem_range.1 hk
      rw [List.getElem?_eq_getElem hk', List.getElem?_eq_getElem (lt_of_lt_of_le hk' h)]
      exact ⟨_, rfl, trivial⟩) ([], rp) trivial
  exact ⟨t, e⟩

theorem initPart_good [Bot Λ] [LinearOrder Λ] (step : (Fin P → K) → (Fin P → K) → Fin P → K) (us : List (Fin P → K)) (lms : List (Fin d → K)) :
    PGood us.length (initPart (initTraj step us) lms : Pt K Λ P d) where
  pos := along_length step us 0
  vel := by simp [initPart, initTraj, PSO.initMap]
  inp := rfl
  best := along_length step us 0
  fits := C102_init 0 lms _
  pos0 := along_zero step us 0
  vel0 := by simp [initPart, initTraj, PSO.initMap]
  best0 := along_zero step us 0

theorem initParts_ok [Bot Λ] [LinearOrder Λ] (env : Env K Λ Z P d) (cfg : RCfg K) (rnd : Nat → K) (us : Fin n → List (Fin P → K)) (Zs : List (List Z)) (N : Nat)
    (hu : ∀ i, (us i).length = N) (hZ : Zs.length = N + 1) : ∀ (l : List (Fin n)) (s : (Fin n → Pt K Λ P d) × Nat),
    ∃ r, initParts env cfg rnd us Zs l s = some r ∧ ∀ i, (i ∈ l ∨ PGood N (s.1 i)) → PGood N (r.1 i)
  | [], s => ⟨s, rfl, fun i h => h.resolve_left List.not_mem_nil⟩
  | i :: l, s => by
    obtain ⟨q, hq⟩ := initLms_ok env.inv cfg.prob rnd (initTraj env.step (us i)).pos Zs s.2 (by rw [hZ]; simp [initTraj, along_length, hu i])
    obtain ⟨r, hr, hg⟩ := initParts_ok env cfg rnd us Zs N hu hZ l (Function.update s.1 i (initPart (initTraj env.step (us i)) q.1), q.2)
    refine ⟨r, ?_, fun j hj => hg j ?_⟩
    · unfold initParts at hr ⊢
      rw [List.foldlM_cons, hq]
      exact hr
    · by_cases hij : j = i
      · right
        simp only [hij, Function.update_self]
        have := initPart_good (Λ := Λ) env.step (us i) q.1
        rwa [hu i] at this
      · rcases hj with hj | hj
        · exact Or.inl ((List.mem_cons.1 hj).resolve_left hij)
        · right; simp only [Function.update_of_ne hij]; exact hj

variable [FloorSemiring K] [IsStrictOrderedRing K]

theorem pick_lt (n : Nat) (h0 : 0 < n) (x : K) (hx : x < 1) : ⌊x * n⌋₊ < n := by
  have hn : (0 : K) < n := Nat.cast_pos.2 h0
  rw [Nat.floor_lt' (by omega)]
  calc x * n < 1 * n := mul_lt_mul_of_pos_right hx hn
    _ = n := one_mul _

theorem newTop_ok (cfg : RCfg K) (h0 : 0 < n) (rnd : Nat → K) (hr : ∀ k, rnd k < 1) (top : List (List Nat)) (rp : Nat) (ht : top.length ≠ n ∨ TopGood n top) :
    ∃ t, newTop cfg n rnd top rp = some t ∧ TopGood n t.1 := by
  unfold newTop
  cases hg : cfg.useGlobal with
  | true =>
    by_cases h : top.length = n
    · have ht := ht.resolve_left (fun hh => hh h)
      exact ⟨_, by simp only [updateTopology, if_true, h, ne_eq, not_true_eq_false, if_false]; rfl, ht⟩
    · refine ⟨_, by simp only [updateTopology, if_true, h, ne_eq, not_false_eq_true]; rfl, by simp, ?_⟩
      intro l hl j hj
      rw [List.eq_of_mem_replicate hl] at hj
      exact List.mem_range.1 hj
  | false =>
    obtain ⟨t, h1, h2, h3⟩ := C105_random n cfg.nb (fun i j => ⌊rnd (rp + i * cfg.nb + j) * n⌋₊) (fun i _ j _ => pick_lt n h0 _ (hr _)) top
    rw [h1]
    refine ⟨_, rfl, h2, ?_⟩
    intro l hl j hj
    obtain ⟨m, hm⟩ := List.getElem?_of_mem hl
    rcases ((h3 m l hm).2 j).1 hj with h | h
    · have := (List.getElem?_eq_some_iff.1 hm).1
      change t.length = n at h2
      change m < t.length at this
      omega
    · exact h.1

theorem init_ok [LinearOrder Λ] [Bot Λ] (env : Env K Λ Z P d) (cfg : RCfg K) (h0 : 0 < n) (rnd : Nat → K) (hr : ∀ k, rnd k < 1) (us : Fin n → List (Fin P → K)) (Zs : List (List Z))
    (N : Nat) (hu : ∀ i, (us i).length = N) (hZ : Zs.length = N + 1) :
    ∃ s : St K Λ P d n, init env cfg rnd us Zs = some s ∧ SGood N s ∧ s.obj.bestP.traj.pos = [] ∧ s.obj.bestP.cur = ⊥ ∧ ∀ i, (s.obj.parts i).cur = ⊥ := by
  let p0 : Pt K Λ P d := ⟨⟨[], [], []⟩, [], [], ⟨[], [], []⟩, [], [], ⊥, ⊥⟩
  obtain ⟨r, e, hg⟩ := initParts_ok (Λ := Λ) env cfg rnd us Zs N hu hZ (List.finRange n) (fun _ => p0, 0)
  have hcur : ∀ (l : List (Fin n)) (s r : (Fin n → Pt K Λ P d) × Nat), initParts env cfg rnd us Zs l s = some r → (∀ i, (s.1 i).cur = ⊥) → ∀ i, (r.1 i).cur = ⊥ := by
    intro l
    induction l with
    | nil => intro s r h hs; cases h; exact hs
    | cons j l ih =>
      intro s r h hs
      unfold initParts at h
      rw [List.foldlM_cons] at h
      cases e2 : initLms env.inv cfg.prob rnd (initTraj env.step (us j)).pos Zs s.2 with
      | none => rw [e2] at h; cases h
      | some q =>
        rw [e2] at h
        refine ih _ r h fun i => ?_
        by_cases hij : i = j
        · simp only [hij, Function.update_self]; rfl
        · simp only [Function.update_of_ne hij]; exact hs i
  obtain ⟨t, e2, ht⟩ := newTop_ok cfg h0 rnd hr [] r.2 (Or.inl (by simp; omega))
  refine ⟨⟨⟨r.1, p0, false⟩, t.1, t.2⟩, ?_, ⟨fun i => hg i (Or.inl (List.mem_finRange i)), ht, Or.inl rfl⟩, rfl, rfl, hcur _ _ _ e fun _ => rfl⟩
  unfold init
  simp only
  rw [e]
  simp only [Option.bind_some]
  rw [e2]
  rfl

/-! ### Moving -/

theorem movePose_zero (cfg : PSO.Cfg K) (rnd : Nat → K) (other : Bool) (g : Fin P → K) (hg : other = true → g = 0) (rp : Nat) :
    (movePose cfg rnd other 0 0 0 g rp).1 = 0 ∧ (movePose cfg rnd other 0 0 0 g rp).2.1 = 0 := by
  have h : (movePose cfg rnd other 0 0 0 g rp).1 = 0 := by
    funext k
    cases other with
    | false => simp [movePose]
    | true => simp [movePose, hg rfl]
  refine ⟨h, ?_⟩
  funext k
  have := congrFun h k
  simp only [movePose] at this ⊢
  rw [this]; simp

theorem moveTraj_ok (cfg : PSO.Cfg K) (rnd : Nat → K) (other : Bool) (t best glob : Traj K P) (rp N : Nat) (h1 : t.pos.length = N + 1) (h2 : t.vel.length = N + 1)
    (h3 : best.pos.length = N + 1) (h4 : glob.pos.length = N + 1) (p0 : t.pos[0]? = some 0) (v0 : t.vel[0]? = some 0) (b0 : best.pos[0]? = some 0) (g0 : glob.pos[0]? = some 0) :
    ∃ r, moveTraj cfg rnd other t best glob rp = some r ∧ r.1.pos.length = N + 1 ∧ r.1.vel.length = N + 1 ∧ r.1.inp = t.inp ∧ r.1.pos[0]? = some 0 ∧ r.1.vel[0]? = some 0 := by
  refine foldlM_keep _ (fun s : Traj K P × Nat => s.1.pos.length = N + 1 ∧ s.1.vel.length = N + 1 ∧ s.1.inp = t.inp ∧ s.1.pos[0]? = some 0 ∧ s.1.vel[0]? = some 0) _ ?_ _
    ⟨h1, h2, rfl, p0, v0⟩
  rintro ⟨s, q⟩ ⟨a1, a2, a3, a4, a5⟩ k hk
  simp only at a1 a2 a3 a4 a5
  have hk' : k < N + 1 := by rw [← h1]; exact List.mem_range.1 hk
  obtain ⟨v, hv⟩ : ∃ v, s.vel[k]? = some v := ⟨_, List.getElem?_eq_getElem (by omega)⟩
  obtain ⟨p, hp⟩ : ∃ p, s.pos[k]? = some p := ⟨_, List.getElem?_eq_getElem (by omega)⟩
  obtain ⟨b, hb⟩ : ∃ b, best.pos[k]? = some b := ⟨_, List.getElem?_eq_getElem (by omega)⟩
  obtain ⟨g, hg⟩ : ∃ g, glob.pos[k]? = some g := ⟨_, List.getElem?_eq_getElem (by omega)⟩
  obtain ⟨g', hg'⟩ : ∃ g', (if other = true then glob.pos[k]? else s.pos[k]?) = some g' := by cases other <;> simp [hp, hg]
  simp only [hv, hp, hb]
  rw [hp] at hg'
  rw [hg']
  refine ⟨(⟨s.pos.set k (movePose cfg rnd other v p b g' q).2.1, s.vel.set k (movePose cfg rnd other v p b g' q).1, s.inp⟩, (movePose cfg rnd other v p b g' q).2.2), rfl, by simpa using a1, by simpa using a2, a3, ?_, ?_⟩
  · by_cases h : k = 0
    · subst h
      rw [hp] at a4; rw [hv] at a5; rw [hb] at b0; rw [hg] at g0
      cases a4; cases a5; cases b0; cases g0
      have := movePose_zero cfg rnd other g' (fun h => by rw [if_pos h, hg] at hg'; cases hg'; rfl) q
      simp only [List.getElem?_set_self (by omega : 0 < s.pos.length)]
      rw [this.2]
    · simp only [List.getElem?_set_ne h]; exact a4
  · by_cases h : k = 0
    · subst h
      rw [hp] at a4; rw [hv] at a5; rw [hb] at b0; rw [hg] at g0
      cases a4; cases a5; cases b0; cases g0
      have := movePose_zero cfg rnd other g' (fun h => by rw [if_pos h, hg] at hg'; cases hg'; rfl) q
      simp only [List.getElem?_set_self (by omega : 0 < s.vel.length)]
      rw [this.1]
    · simp only [List.getElem?_set_ne h]; exact a5

variable [LinearOrder Λ]

theorem movePt_ok (env : Env K Λ Z P d) (cfg : RCfg K) (rnd : Nat → K) (other : Bool) (p a : Pt K Λ P d) (rp N : Nat) (hp : PGood N p) (ha : PGood N a) :
    ∃ r, movePt env cfg rnd other p a rp = some r ∧ PGood N r.1 ∧ r.1.cur = p.cur ∧ r.1.best = p.best ∧ r.1.bestTraj = p.bestTraj := by
  obtain ⟨t, e, b1, b2, b3, b4, b5⟩ := moveTraj_ok cfg.lm rnd other p.traj p.bestTraj a.bestTraj rp N hp.pos hp.vel hp.best ha.best hp.pos0 hp.vel0 hp.best0 ha.best0
  obtain ⟨l', v', p', del, nv, kept, cP, cG, e1, e2, -⟩ := C55_update cfg.lm env.dist rnd (env.asg p.lms p.bestLms) (env.asg p.lms a.bestLms)
    p.bestLms p.bestVel a.bestLms a.bestVel p.lms p.vel t.2 hp.fits.1 hp.fits.2 ha.fits.2
  refine ⟨({ p with traj := t.1, lms := List.zipWith (fun l v => l + v) l' v', vel := v' }, p'), ?_, ?_, rfl, rfl, rfl⟩
  · unfold movePt
    rw [e]
    simp [movePart, e1, e2]
  · exact ⟨b1, b2, by rw [b3]; exact hp.inp, hp.best, ⟨by simp [e2], hp.fits.2⟩, b4, b5, hp.best0⟩

theorem neighbours_ok (top : List (List Nat)) (ht : TopGood n top) (i : Fin n) : ∃ nb, neighbours n top i = some nb := by
  have hi : i.val < top.length := by rw [ht.1]; exact i.2
  unfold neighbours
  rw [List.getElem?_eq_getElem hi]
  have h : ∀ l : List Nat, (∀ j ∈ l, j < n) → ∃ nb : List (Fin n), (l.mapM fun j => if h : j < n then some (⟨j, h⟩ : Fin n) else none) = some nb := by
    intro l
    induction l with
    | nil => intro _; exact ⟨[], rfl⟩
    | cons j l ih =>
      intro hl
      obtain ⟨nb, e⟩ := ih fun k hk => hl k (List.mem_cons_of_mem _ hk)
      refine ⟨⟨j, hl j (List.mem_cons_self ..)⟩ :: nb, ?_⟩
      rw [List.mapM_cons, e, dif_pos (hl j (List.mem_cons_self ..))]
      rfl
  exact h _ (ht.2 _ (List.getElem_mem hi))

theorem move_ok (env : Env K Λ Z P d) (cfg : RCfg K) (h0 : 0 < n) (rnd : Nat → K) (hr : ∀ k, rnd k < 1) (s : St K Λ P d n) (N : Nat) (hs : SGood N s) :
    ∃ t, move env cfg rnd s = some t ∧ SGood N t ∧ (∀ i, (t.obj.parts i).cur = (s.obj.parts i).cur) ∧ t.obj.bestP = s.obj.bestP := by
  obtain ⟨t, e, ht⟩ : ∃ t, (if s.obj.improved then some (s.top, s.rp) else newTop cfg n rnd s.top s.rp) = some t ∧ TopGood n t.1 := by
    cases s.obj.improved with
    | true => exact ⟨_, rfl, hs.top⟩
    | false => exact newTop_ok cfg h0 rnd hr s.top s.rp (Or.inr hs.top)
  obtain ⟨r, e2, h1, h2⟩ := foldlM_keep (moveOne env cfg rnd t.1) (fun q : (Fin n → Pt K Λ P d) × Nat => (∀ i, PGood N (q.1 i)) ∧ ∀ i, (q.1 i).cur = (s.obj.parts i).cur)
    (List.finRange n) (by
      rintro ⟨q, rp⟩ ⟨hq, hc⟩ i -
      obtain ⟨nb, en⟩ := neighbours_ok t.1 ht i
      obtain ⟨r, er, g1, g2, -⟩ := movePt_ok env cfg rnd (decide (attractor q i nb ≠ i)) (q i) (q (attractor q i nb)) rp N (hq i) (hq _)
      refine ⟨(Function.update q i r.1, r.2), ?_, ?_, ?_⟩
      · unfold moveOne
        rw [en]
        simp only [Option.bind_some]
        rw [er]
        rfl
      · intro j
        by_cases hij : j = i
        · simp only [hij, Function.update_self]; exact g1
        · simp only [Function.update_of_ne hij]; exact hq j
      · intro j
        by_cases hij : j = i
        · simp only [hij, Function.update_self]; rw [g2]; exact hc i
        · simp only [Function.update_of_ne hij]; exact hc j) (s.obj.parts, t.2) ⟨hs.parts, fun _ => rfl⟩
  refine ⟨⟨{ s.obj with parts := r.1 }, t.1, r.2⟩, ?_, ⟨h1, ht, hs.bestP⟩, h2, rfl⟩
  unfold move
  rw [e]
  simp only [Option.bind_some]
  rw [e2]
  rfl

/-! ### Evaluating -/

theorem evalAll_good (env : Env K Λ Z P d) (h0 : 0 < n) (σ : Sched n) (s : St K Λ P d n) (N : Nat) (hs : SGood N s) : SGood N (evalAll env h0 σ s) where
  parts i := by
    have h := hs.parts i
    show PGood N ((evaluate (fun t l => env.lik t.pos l) σ.thread h0 σ.evs s.obj).1.parts i)
    have hf := C102_evaluate (fun (t : Traj K P) l => env.lik t.pos l) σ.thread h0 σ.evs s.obj (fun i => (hs.parts i).fits) i
    rw [evaluate_parts] at hf ⊢
    have e1 := evalPart_pos (fun (t : Traj K P) l => env.lik t.pos l) (s.obj.parts i)
    have e2 := (evalPart_best (fun (t : Traj K P) l => env.lik t.pos l) (s.obj.parts i)).2.2
    refine ⟨by rw [e1.1]; exact h.pos, by rw [e1.1]; exact h.vel, by rw [e1.1]; exact h.inp, ?_, hf, by rw [e1.1]; exact h.pos0, by rw [e1.1]; exact h.vel0, ?_⟩
    · rcases e2 with e2 | e2
      · rw [e2.2.1]; exact h.best
      · rw [e2.2.1]; exact h.pos
    · rcases e2 with e2 | e2
      · rw [e2.2.1]; exact h.best0
      · rw [e2.2.1]; exact h.pos0
  top := hs.top
  bestP := by
    show (evaluate (fun (t : Traj K P) l => env.lik t.pos l) σ.thread h0 σ.evs s.obj).1.bestP.traj.pos = [] ∨ (evaluate (fun (t : Traj K P) l => env.lik t.pos l) σ.thread h0 σ.evs s.obj).1.bestP.traj.pos[0]? = some 0
    unfold evaluate
    simp only
    split
    · right
      simp only
      rw [(evalPart_pos (fun (t : Traj K P) l => env.lik t.pos l) _).1]
      exact (hs.parts _).pos0
    · exact hs.bestP

theorem evalAll_part (env : Env K Λ Z P d) (h0 : 0 < n) (σ : Sched n) (s : St K Λ P d n) (i : Fin n) :
    ((evalAll env h0 σ s).obj.parts i).cur = env.lik (s.obj.parts i).traj.pos (s.obj.parts i).lms ∧ ((evalAll env h0 σ s).obj.parts i).traj = (s.obj.parts i).traj ∧
      ((evalAll env h0 σ s).obj.parts i).lms = (s.obj.parts i).lms := by
  have e1 := evalPart_pos (fun (t : Traj K P) l => env.lik t.pos l) (s.obj.parts i)
  unfold evalAll
  simp only [evaluate_parts]
  exact ⟨evalPart_cur _ _, e1.1, e1.2.1⟩

/-- The best particle after an evaluation. -/
theorem evalAll_best (env : Env K Λ Z P d) (h0 : 0 < n) (σ : Sched n) (s : St K Λ P d n) :
    s.obj.bestP.cur ≤ (evalAll env h0 σ s).obj.bestP.cur ∧
      ((evalAll env h0 σ s).obj.bestP = s.obj.bestP ∨
        ∃ i, (evalAll env h0 σ s).obj.bestP = (evalAll env h0 σ s).obj.parts i) := by
  unfold evalAll evaluate
  simp only
  split
  · rename_i h
    exact ⟨h.le, Or.inr ⟨_, rfl⟩⟩
  · exact ⟨le_refl _, Or.inl rfl⟩

/-! ### Optimising -/

theorem mapM_id_some {α : Type} : ∀ l : List α, (l.map some).mapM id = some l
  | [] => rfl
  | a :: l => by rw [List.map_cons, List.mapM_cons, mapM_id_some l]; rfl

theorem optPart_ok (solve : List K → Nat → K) (p : Pt K Λ P d) (N : Nat) (hN : 0 < N) (hp : PGood N p) :
    ∃ (ps : List K), Batch.initParams p.traj.pos p.lms = some (ps.map some) ∧ ps.length = Batch.numParameters P d (N + 1) p.lms.length ∧
      optPart solve p = some { p with
        traj := ⟨posBack p.traj.pos (solve ps), p.traj.vel, inpBack (posBack p.traj.pos (solve ps)) p.traj.inp⟩,
        lms := lmsBack (P := P) p.traj.pos.length p.lms (solve ps) } := by
  have hne : p.traj.pos ≠ [] := by intro h; have := hp.pos; rw [h] at this; simp at this
  obtain ⟨ps, e1, e2, -⟩ := BatchProps.C108_round_trip p.traj.pos p.lms hne
  refine ⟨ps, e1, by rw [e2, hp.pos], ?_⟩
  unfold optPart
  rw [if_neg (by rw [hp.pos, hp.inp]; omega), e1]
  simp only [Option.bind_some]
  rw [mapM_id_some]
  rfl

theorem optPart_good (solve : List K → Nat → K) (p : Pt K Λ P d) (N : Nat) (hN : 0 < N) (hp : PGood N p) :
    ∃ r, optPart solve p = some r ∧ PGood N r := by
  obtain ⟨ps, -, -, e⟩ := optPart_ok solve p N hN hp
  refine ⟨_, e, ⟨by simp [posBack, hp.pos], hp.vel, by simp [inpBack, hp.inp], hp.best, ⟨by simp [lmsBack, hp.fits.1], hp.fits.2⟩, ?_, hp.vel0, hp.best0⟩⟩
  simp only [posBack, List.getElem?_mapIdx, hp.pos0]
  rfl

theorem optimize_ok (solve : Fin n → List K → Nat → K) (s : St K Λ P d n) (N : Nat) (hN : 0 < N) (hs : SGood N s) :
    ∃ t, optimize solve s = some t ∧ SGood N t ∧ (∀ i, optPart (solve i) (s.obj.parts i) = some (t.obj.parts i)) ∧ t.obj.bestP = s.obj.bestP := by
  have h : ∀ i, ∃ r, optPart (solve i) (s.obj.parts i) = some r ∧ PGood N r := fun i => optPart_good (solve i) _ N hN (hs.parts i)
  have h1 : ∀ i, (optPart (solve i) (s.obj.parts i)).isSome := fun i => by obtain ⟨r, e, -⟩ := h i; rw [e]; rfl
  refine ⟨⟨⟨fun i => (optPart (solve i) (s.obj.parts i)).getD (s.obj.parts i), s.obj.bestP, s.obj.improved⟩, s.top, s.rp⟩, by unfold optimize; rw [if_pos h1], ⟨fun i => ?_, hs.top, hs.bestP⟩, fun i => ?_, rfl⟩
  · obtain ⟨r, e, hr⟩ := h i
    simp only [e, Option.getD_some]; exact hr
  · obtain ⟨r, e, hr⟩ := h i
    simp only [e, Option.getD_some]

/-! ### Runs -/

theorem body_ok (pr : Prog) (env : Env K Λ Z P d) (cfg : RCfg K) (W : World K n) (h0 : 0 < n) (hr : ∀ k, W.rnd k < 1) (every : Int) (it : Nat) (s : St K Λ P d n) (N : Nat)
    (hN : every ≤ 0 ∨ 0 < N) (hs : SGood N s) : ∃ t, body pr env cfg W h0 every it s = some t ∧ SGood N t := by
  unfold body
  by_cases ho : 0 < every ∧ (it : Int) % every = 0
  · have hN : 0 < N := hN.resolve_left (by omega)
    cases pr with
    | sim =>
      obtain ⟨t, e, ht, -⟩ := optimize_ok (W.solve it) s N hN hs
      obtain ⟨u, e2, hu, -⟩ := move_ok env cfg h0 W.rnd hr _ N (evalAll_good env h0 (W.sched it 0) t N ht)
      exact ⟨u, by simp only [ho, and_self, decide_true, if_true, e, Option.bind_some, e2], hu⟩
    | orb =>
      obtain ⟨t, e, ht, -⟩ := optimize_ok (W.solve it) _ N hN (evalAll_good env h0 (W.sched it 0) s N hs)
      obtain ⟨u, e2, hu, -⟩ := move_ok env cfg h0 W.rnd hr _ N (evalAll_good env h0 (W.sched it 1) t N ht)
      exact ⟨u, by simp only [ho, and_self, decide_true, if_true, e, Option.map_some, Option.bind_some, e2], hu⟩
  · cases pr with
    | sim =>
      obtain ⟨u, e2, hu, -⟩ := move_ok env cfg h0 W.rnd hr _ N (evalAll_good env h0 (W.sched it 0) s N hs)
      exact ⟨u, by simp only [ho, decide_false, Bool.false_eq_true, if_false, Option.bind_some, e2], hu⟩
    | orb =>
      obtain ⟨u, e2, hu, -⟩ := move_ok env cfg h0 W.rnd hr _ N (evalAll_good env h0 (W.sched it 0) s N hs)
      exact ⟨u, by simp only [ho, decide_false, Bool.false_eq_true, if_false, Option.bind_some, e2], hu⟩

end
end PSORuns
end RFS
