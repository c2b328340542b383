import Verif.Lemmas.HungDblSafe
import Mathlib.Algebra.Order.BigOperators.Group.List

/-!
The Hungarian method with rounding: on matrices whose entries are multiples of a number above the tolerances, and not
too large, no operation rounds, and the function behaves as with exact arithmetic.
-/

set_option linter.unusedSectionVars false

namespace RFS
namespace HungDbl
open Hungarian

variable {K : Type*} [Field K] [LinearOrder K] [IsStrictOrderedRing K] {n : Nat}

/-- Integer multiples of `g`. -/
def Mul (g z : K) : Prop := ∃ k : ℤ, z = k * g

theorem Mul.add {g a b : K} (ha : Mul g a) (hb : Mul g b) : Mul g (a + b) := by
  obtain ⟨i, rfl⟩ := ha; obtain ⟨j, rfl⟩ := hb
  exact ⟨i + j, by push_cast; ring⟩

theorem Mul.sub {g a b : K} (ha : Mul g a) (hb : Mul g b) : Mul g (a - b) := by
  obtain ⟨i, rfl⟩ := ha; obtain ⟨j, rfl⟩ := hb
  exact ⟨i - j, by push_cast; ring⟩

theorem Mul.neg {g a : K} (ha : Mul g a) : Mul g (a * (-1)) := by
  obtain ⟨i, rfl⟩ := ha
  exact ⟨-i, by push_cast; ring⟩

theorem Mul.zero {g : K} : Mul g 0 := ⟨0, by simp⟩

theorem Mul.lt_iff {g z τ : K} (hz : Mul g z) (h0 : 0 < τ) (hg : τ ≤ g) : |z| < τ ↔ z = 0 := by
  constructor
  · intro h
    obtain ⟨k, rfl⟩ := hz
    have hgp : 0 < g := lt_of_lt_of_le h0 hg
    rw [abs_mul, abs_of_pos hgp] at h
    have h1 : |(k : K)| * g < 1 * g := by rw [one_mul]; exact lt_of_lt_of_le h hg
    have h2 := lt_of_mul_lt_mul_right h1 hgp.le
    have h3 : |k| < 1 := by exact_mod_cast h2
    have : k = 0 := by
      rcases abs_lt.1 h3 with ⟨h4, h5⟩; omega
    simp [this]
  · rintro rfl; simpa using h0

/-- The rounding changes no multiple of `g` up to `B`, and the tolerances are at most `g`. -/
structure Ok (rd : K → K) (g B : K) : Prop where
  fix : ∀ z, Mul g z → |z| ≤ B → rd z = z
  sPos : 0 < rd tolS
  sLe : rd tolS ≤ g
  ePos : 0 < rd tolE
  eLe : rd tolE ≤ g
  tol : (tolE : K) ≤ g

/-- Working matrices: multiples of `g` from `0` to `M`. -/
structure WOk (g M : K) (W : Mat K n) : Prop where
  mul : ∀ x y, Mul g (W x y)
  nonneg : ∀ x y, 0 ≤ W x y
  le : ∀ x y, W x y ≤ M

/-- Labels: multiples of `g` from `0` to `M` on rows and from `0` to `D` on columns, zero on free columns. -/
structure GC (g M D : K) (c : Core K n) : Prop where
  lxm : ∀ x, Mul g (c.lx x)
  lym : ∀ y, Mul g (c.ly y)
  lx0 : ∀ x, 0 ≤ c.lx x
  lxM : ∀ x, c.lx x ≤ M
  ly0 : ∀ y, 0 ≤ c.ly y
  lyM : ∀ y, c.ly y ≤ D
  free : ∀ y, c.yx y = none → c.ly y = 0

/-- Slacks: multiples of `g` from `0` to `M + D`. -/
structure GT (g M D : K) (t : Tree K n) : Prop where
  mul : ∀ y, Mul g (t.slack y)
  nonneg : ∀ y, 0 ≤ t.slack y
  le : ∀ y, t.slack y ≤ M + D

/-- What bounds the labels of columns: in step 3 the labels of the columns of the tree do not grow beyond `D`. -/
def Cap (W : Mat K n) (g M D : K) : Prop := ∀ (c : Core K n) (t : Tree K n) (a : K), GC g M D c → CInv W c → TInv W c t →
  (∀ x y0, t.S x = true → c.yx y0 = none → t.T y0 = false → a ≤ Hungarian.sl W c x y0) →
  ∀ y, t.T y = true → c.ly y + a ≤ D

section
variable {rd : K → K} {g M D : K}

theorem sl_mul {W : Mat K n} {c : Core K n} (hW : WOk g M W) (hc : GC g M D c) (x y : Fin n) :
    Mul g (Hungarian.sl W c x y) := by
  unfold Hungarian.sl
  exact ((hc.lxm x).add (hc.lym y)).sub (hW.mul x y)

theorem sl_le {W : Mat K n} {c : Core K n} (hW : WOk g M W) (hc : GC g M D c) (x y : Fin n) :
    Hungarian.sl W c x y ≤ M + D := by
  unfold Hungarian.sl
  have := hc.lxM x; have := hc.lyM y; have := hW.nonneg x y
  linarith

theorem sl_eq (h : Ok rd g (M + D)) {W : Mat K n} {c : Core K n} (hW : WOk g M W) (hc : GC g M D c) (x y : Fin n) :
    sl rd W c x y = Hungarian.sl W c x y := by
  unfold sl
  have a1 := hc.lxM x; have a2 := hc.lyM y; have a3 := hW.nonneg x y
  have a4 := hc.lx0 x; have a5 := hc.ly0 y; have a6 := hW.le x y
  rw [h.fix (c.lx x + c.ly y) ((hc.lxm x).add (hc.lym y)) (by rw [abs_le]; constructor <;> linarith)]
  exact h.fix _ (sl_mul hW hc x y) (by rw [abs_le]; constructor <;> linarith)

theorem Ok.gpos {B : K} (h : Ok rd g B) : 0 < g := lt_of_lt_of_le h.sPos h.sLe

theorem tolS_iff {B : K} (h : Ok rd g B) {z : K} (hz : Mul g z) : |z| < rd tolS ↔ |z| < (tolS : K) := by
  rw [hz.lt_iff h.sPos h.sLe, hz.lt_iff tolS_pos (le_trans tolS_le_tolE h.tol)]

theorem tolE_iff {B : K} (h : Ok rd g B) {z : K} (hz : Mul g z) : |z| < rd tolE ↔ |z| < (tolE : K) := by
  rw [hz.lt_iff h.ePos h.eLe, hz.lt_iff tolE_pos h.tol]

theorem pickRoot_eq (h : Ok rd g (M + D)) {W : Mat K n} {c : Core K n} (hW : WOk g M W) (hc : GC g M D c) :
    pickRoot rd W c = Hungarian.pickRoot W c := by
  unfold pickRoot Hungarian.pickRoot
  have e1 : ∀ x y, (|Hungarian.sl W c x y| < rd tolS) = (|Hungarian.sl W c x y| < (tolS : K)) :=
    fun x y => propext (tolS_iff h (sl_mul hW hc x y))
  cases (List.finRange n).find? (fun x => (c.xy x).isNone) with
  | none => rfl
  | some x => simp only [sl_eq h hW hc, e1]

theorem pickRoot_gt (h : Ok rd g (M + D)) (hM : 0 ≤ M) {W : Mat K n} {c : Core K n} {t : Tree K n} (hW : WOk g M W)
    (hc : GC g M D c) (hI : CInv W c) (he : Hungarian.pickRoot W c = some t) : GT g M D t := by
  unfold Hungarian.pickRoot at he
  split at he
  · cases he
  · rename_i x hf
    cases he
    refine ⟨fun y => ?_, fun y => ?_, fun y => ?_⟩
    · simp only
      split
      · exact Mul.zero
      · exact sl_mul hW hc x y
    · simp only
      split
      · exact le_refl _
      · exact hI.feas x y
    · simp only
      split
      · have := hc.ly0 y; have := hc.lyM y; linarith
      · exact sl_le hW hc x y

theorem bfs_eq (h : Ok rd g (M + D)) {W : Mat K n} {c : Core K n} (hW : WOk g M W) (hc : GC g M D c)
    (S : Fin n → Bool) (target : Fin n) : ∀ (fuel : Nat) (b : Bfs n),
    bfs rd W c S target fuel b = Hungarian.bfs W c S target fuel b := by
  intro fuel
  have e1 : ∀ x y, decide (|sl rd W c x y| < rd tolE) = decide (|Hungarian.sl W c x y| < (tolE : K)) := by
    intro x y
    rw [sl_eq h hW hc]
    exact decide_eq_decide.2 (tolE_iff h (sl_mul hW hc x y))
  induction fuel with
  | zero => intro b; rfl
  | succ fuel ih =>
    intro b
    have eX : ∀ x rest, expandX rd W c b x rest = Hungarian.expandX W c b x rest := by
      intro x rest
      unfold expandX Hungarian.expandX childrenX Hungarian.childrenX
      simp only [e1]
    have eY : ∀ y rest, expandY rd W c S b y rest = Hungarian.expandY W c S b y rest := by
      intro y rest
      unfold expandY Hungarian.expandY childrenY Hungarian.childrenY
      simp only [e1]
    simp only [bfs, Hungarian.bfs, eX, eY, ih]
    cases b.queue with
    | nil => rfl
    | cons v rest => cases v <;> rfl

theorem step4_eq (h : Ok rd g (M + D)) {W : Mat K n} {c : Core K n} (hW : WOk g M W) (hc : GC g M D c) (t : Tree K n) :
    step4 rd W c t = Hungarian.step4 W c t := by
  have e1 : ∀ x y, (|Hungarian.sl W c x y| < rd tolS) = (|Hungarian.sl W c x y| < (tolS : K)) :=
    fun x y => propext (tolS_iff h (sl_mul hW hc x y))
  unfold step4 Hungarian.step4
  cases (List.finRange n).find? (fun y => t.NS y && !(t.T y)) with
  | none => rfl
  | some y =>
    cases hy : c.yx y with
    | none =>
      simp only [hy, bfs_eq h hW hc]
      cases Hungarian.bfs W c t.S y (2 * n + 1) (bfsInit t.root) with
      | none => rfl
      | some o =>
        cases o with
        | none => rfl
        | some b =>
          simp only
          cases augment t.root b (n + 1) c y <;> rfl
    | some xt => simp only [hy, sl_eq h hW hc, e1]

theorem augment_keep (root : Fin n) (b : Bfs n) : ∀ (fuel : Nat) (c c' : Core K n) (y : Fin n),
    augment root b fuel c y = some c' →
    c'.lx = c.lx ∧ c'.ly = c.ly ∧ ∀ z, c'.yx z = none → c.yx z = none := by
  intro fuel
  induction fuel with
  | zero => intro c c' y h; cases h
  | succ fuel ih =>
    intro c c' y h
    unfold augment at h
    split at h
    · cases h
    · rename_i x hx
      have key : ∀ z, (Function.update c.yx y (some x)) z = none → c.yx z = none := by
        intro z hz
        by_cases e : z = y
        · subst e; simp at hz
        · simpa [e] using hz
      simp only at h
      split at h
      · cases h
        exact ⟨rfl, rfl, key⟩
      · split at h
        · cases h
        · obtain ⟨h1, h2, h3⟩ := ih _ _ _ h
          exact ⟨h1, h2, fun z hz => key z (h3 z hz)⟩

theorem step4_keep {W : Mat K n} {c : Core K n} {t : Tree K n} (hW : WOk g M W) (hc : GC g M D c) (hI : CInv W c)
    (ht : GT g M D t) :
    (∀ c' t', Hungarian.step4 W c t = .cont c' t' → GC g M D c' ∧ ∀ t1, t' = some t1 → GT g M D t1) := by
  intro c' t' h
  unfold Hungarian.step4 at h
  split at h
  · cases h
  · rename_i y hf
    split at h
    · split at h
      · cases h
      · cases h
      · rename_i b hb
        split at h
        · cases h
        · rename_i c1 ha
          cases h
          obtain ⟨h1, h2, h3⟩ := augment_keep _ _ _ _ _ _ ha
          refine ⟨⟨?_, ?_, ?_, ?_, ?_, ?_, ?_⟩, by simp⟩
          · rw [h1]; exact hc.lxm
          · rw [h2]; exact hc.lym
          · rw [h1]; exact hc.lx0
          · rw [h1]; exact hc.lxM
          · rw [h2]; exact hc.ly0
          · rw [h2]; exact hc.lyM
          · intro z hz; rw [h2]; exact hc.free z (h3 z hz)
    · rename_i xt hyx
      cases h
      refine ⟨hc, ?_⟩
      rintro t1 ⟨⟩
      refine ⟨fun z => ?_, fun z => ?_, fun z => ?_⟩
      · simp only
        split
        · exact sl_mul hW hc xt z
        · exact ht.mul z
      · simp only
        split
        · exact hI.feas xt z
        · exact ht.nonneg z
      · simp only
        split
        · exact sl_le hW hc xt z
        · exact ht.le z

/-- Step 3 does not round, and keeps the ranges of labels and slacks. -/
theorem updateLabels_eq (h : Ok rd g (M + D)) {W : Mat K n} {c : Core K n} {t : Tree K n} (hW : WOk g M W) (hD : Cap W g M D)
    (hc : GC g M D c) (ht : GT g M D t) (hI : CInv W c) (hT : TInv W c t) :
    updateLabels rd c t = Hungarian.updateLabels c t ∧
    ∀ c' t', Hungarian.updateLabels c t = some (c', t') → GC g M D c' ∧ GT g M D t' := by
  unfold updateLabels Hungarian.updateLabels
  by_cases hNS : ∀ y, t.NS y = t.T y
  · simp only [if_pos hNS]
    cases hm : minSlack t with
    | none => exact ⟨rfl, fun c' t' he => by cases he⟩
    | some a =>
      obtain ⟨hle, y1, hy1, hy1a⟩ := (minSlack_spec t).2 a hm
      have hnNS : ∀ y, t.T y = false → t.NS y = false := fun y h => by rw [hNS]; exact h
      have ha0 : 0 ≤ a := by rw [← hy1a]; exact ht.nonneg y1
      have hag : Mul g a := by rw [← hy1a]; exact ht.mul y1
      obtain ⟨y0, hy0f, hy0T⟩ := safe_notT hI.cons ⟨hT.free, hT.rootS, hT.tMatched, hT.sMatched, hT.tNS⟩
      -- labels of the rows in the tree stay nonnegative
      have hlx : ∀ x, t.S x = true → 0 ≤ c.lx x - a := by
        intro x hx
        have g1 := hle y0 hy0T
        have g2 := (hT.notNS y0 (hnNS y0 hy0T)).2.1 x hx
        have g3 := hc.free y0 hy0f
        have g4 := hW.nonneg x y0
        unfold Hungarian.sl at g2
        rw [g3] at g2
        linarith
      -- labels of the columns in the tree stay below `D`
      have hly : ∀ y, t.T y = true → c.ly y + a ≤ D := by
        apply hD c t a hc hI hT
        intro x y0 hx hy0f hy0T
        exact le_trans (hle y0 hy0T) ((hT.notNS y0 (hnNS y0 hy0T)).2.1 x hx)
      have hD0 : 0 ≤ D := le_trans (hc.ly0 y0) (hc.lyM y0)
      have hM0 : 0 ≤ M := le_trans (hc.lx0 t.root) (hc.lxM t.root)
      have r1 : ∀ x, (if t.S x then rd (c.lx x - a) else c.lx x) = if t.S x then c.lx x - a else c.lx x := by
        intro x
        split
        · rename_i hx
          have := hlx x hx
          have := hc.lxM x
          exact h.fix _ ((hc.lxm x).sub hag) (by rw [abs_le]; constructor <;> linarith)
        · rfl
      have r2 : ∀ y, (if t.T y then rd (c.ly y + a) else c.ly y) = if t.T y then c.ly y + a else c.ly y := by
        intro y
        split
        · rename_i hy
          have := hly y hy
          have := hc.ly0 y
          exact h.fix _ ((hc.lym y).add hag) (by rw [abs_le]; constructor <;> linarith)
        · rfl
      have r3 : ∀ y, (if t.T y then t.slack y else rd (t.slack y - a)) = if t.T y then t.slack y else t.slack y - a := by
        intro y
        split
        · rfl
        · rename_i hy
          have := hle y (by simpa using hy)
          have := ht.le y
          exact h.fix _ ((ht.mul y).sub hag) (by rw [abs_le]; constructor <;> linarith)
      refine ⟨by simp only [r1, r2, r3], ?_⟩
      rintro c' t' he
      cases he
      refine ⟨⟨?_, ?_, ?_, ?_, ?_, ?_, ?_⟩, ⟨?_, ?_, ?_⟩⟩
      · intro x; simp only; split
        · exact (hc.lxm x).sub hag
        · exact hc.lxm x
      · intro y; simp only; split
        · exact (hc.lym y).add hag
        · exact hc.lym y
      · intro x; simp only; split
        · rename_i hx; exact hlx x hx
        · exact hc.lx0 x
      · intro x; simp only; have := hc.lxM x; split <;> linarith
      · intro y; simp only; have := hc.ly0 y; split <;> linarith
      · intro y; simp only; split
        · rename_i hy; exact hly y hy
        · exact hc.lyM y
      · intro y hy
        have hTy : t.T y = false := by
          by_contra hcon
          obtain ⟨x, g1, _⟩ := hT.tMatched y (by simpa using hcon)
          rw [show c.yx y = none from hy] at g1; cases g1
        simp only [hTy, Bool.false_eq_true, if_false]
        exact hc.free y hy
      · intro y; simp only; split
        · exact ht.mul y
        · exact (ht.mul y).sub hag
      · intro y; simp only; split
        · exact ht.nonneg y
        · rename_i hy; have := hle y (by simpa using hy); linarith
      · intro y; simp only; have := ht.le y; split <;> linarith
  · simp only [if_neg hNS]
    refine ⟨trivial, ?_⟩
    rintro c' t' he
    cases he
    exact ⟨hc, ht⟩

theorem step34_eq (h : Ok rd g (M + D)) {W : Mat K n} {c : Core K n} {t : Tree K n} (hW : WOk g M W) (hD : Cap W g M D)
    (hc : GC g M D c) (ht : GT g M D t) (hI : CInv W c) (hT : TInv W c t) :
    step34 rd W c t = Hungarian.step34 W c t ∧
    ∀ c' t', Hungarian.step34 W c t = .cont c' t' → GC g M D c' ∧ ∀ t1, t' = some t1 → GT g M D t1 := by
  obtain ⟨e, hk⟩ := updateLabels_eq h hW hD hc ht hI hT
  obtain ⟨c1, t1, e1, hI1, hT1, -⟩ := updateLabels_spec hI hT
  obtain ⟨k1, k2⟩ := hk c1 t1 e1
  unfold step34 Hungarian.step34
  rw [e, e1]
  simp only
  rw [step4_eq h hW k1]
  exact ⟨rfl, step4_keep hW k1 hI1 k2⟩

/-- Replace the cost and the matrix of a result. -/
def swap (C : Mat K n) (cost : (Fin n → Fin n) → K) : Result K n → Result K n
  | .solved s _ _ => .solved s (cost s) C
  | r => r

theorem loop_swap {W : Mat K n} {o : K} {m : Bool} : ∀ (fuel : Nat) (c : Core K n) (t : Option (Tree K n)),
    swap (Hungarian.restore W o m) (fun s => (List.finRange n).foldl (fun z x => z + Hungarian.restore W o m x (s x)) 0)
      (Hungarian.loop W o m fuel c t) = Hungarian.loop W o m fuel c t := by
  intro fuel
  induction fuel with
  | zero => intro c t; rfl
  | succ fuel ih =>
    intro c t
    simp only [Hungarian.loop]
    cases Hungarian.pass W c t with
    | solved c' =>
      simp only
      split <;> rfl
    | cont c' t' => exact ih c' t'
    | noPath => rfl
    | ub => rfl

/-- The rounded loop finds what the exact one finds; the offset and the direction matter only for the reported cost and the
matrix left behind. -/
theorem loop_sim (h : Ok rd g (M + D)) {W : Mat K n} (hW : WOk g M W) (hD : Cap W g M D) {o o' : K} {m m' : Bool} :
    ∀ (fuel : Nat) (c : Core K n) (t : Option (Tree K n)), GC g M D c → CInv W c →
    (∀ t', t = some t' → GT g M D t' ∧ TInv W c t') →
    loop rd W o m fuel c t = swap (restore rd W o m) (fun s => (List.finRange n).foldl (fun z x => rd (z + restore rd W o m x (s x))) 0)
      (Hungarian.loop W o' m' fuel c t) := by
  intro fuel
  induction fuel with
  | zero => intro c t _ _ _; rfl
  | succ fuel ih =>
    intro c t hc hI ht
    have hstep : ∀ t', GT g M D t' → TInv W c t' → pass rd W c t = step34 rd W c t' →
        Hungarian.pass W c t = Hungarian.step34 W c t' →
        loop rd W o m (fuel + 1) c t = swap (restore rd W o m) (fun s => (List.finRange n).foldl (fun z x => rd (z + restore rd W o m x (s x))) 0)
          (Hungarian.loop W o' m' (fuel + 1) c t) := by
      intro t' hg hT e1 e2
      obtain ⟨q1, q2⟩ := step34_eq h hW hD hc hg hI hT
      rw [q1] at e1
      rcases step34_spec hI hT with ⟨c1, e, h1, -⟩ | ⟨c1, t1, e, h1, h2, -⟩
      · rw [e] at e1 e2
        obtain ⟨k1, -⟩ := q2 c1 none e
        simp only [loop, Hungarian.loop, e1, e2]
        exact ih c1 none k1 h1 (by simp)
      · rw [e] at e1 e2
        obtain ⟨k1, k2⟩ := q2 c1 (some t1) e
        simp only [loop, Hungarian.loop, e1, e2]
        exact ih c1 (some t1) k1 h1 (by rintro _ ⟨⟩; exact ⟨k2 t1 rfl, h2⟩)
    cases t with
    | some t' =>
      obtain ⟨h1, h2⟩ := ht t' rfl
      exact hstep t' h1 h2 rfl rfl
    | none =>
      have hp := pickRoot_eq h hW hc
      cases hq : Hungarian.pickRoot W c with
      | none =>
        rw [hq] at hp
        have hall := pickRoot_none hq
        simp only [loop, Hungarian.loop, pass, Hungarian.pass, hp, hq, dif_pos hall, swap]
      | some t' =>
        rw [hq] at hp
        obtain ⟨h1, -⟩ := pickRoot_some hI hq
        have hM0 : 0 ≤ M := le_trans (hc.lx0 t'.root) (hc.lxM t'.root)
        exact hstep t' (pickRoot_gt h hM0 hW hc hI hq) h1 (by simp only [pass, hp]) (by simp only [Hungarian.pass, hq])

theorem loop_eq (h : Ok rd g (M + D)) {W : Mat K n} (hW : WOk g M W) (hD : Cap W g M D) {o : K} {m : Bool}
    (hr : restore rd W o m = Hungarian.restore W o m)
    (hcost : ∀ soln : Fin n → Fin n, (List.finRange n).foldl (fun s x => rd (s + Hungarian.restore W o m x (soln x))) 0
      = (List.finRange n).foldl (fun s x => s + Hungarian.restore W o m x (soln x)) 0)
    (fuel : Nat) (c : Core K n) (t : Option (Tree K n)) (hc : GC g M D c) (hI : CInv W c)
    (ht : ∀ t', t = some t' → GT g M D t' ∧ TInv W c t') :
    loop rd W o m fuel c t = Hungarian.loop W o m fuel c t := by
  rw [loop_sim h hW hD (o' := o) (m' := m) fuel c t hc hI ht, hr]
  simp only [hcost]
  exact loop_swap fuel c t

/-! ### Step 1 -/

theorem initRow_lx {W : Mat K n} {c c' : Core K n} {x : Fin n} (h : initRow W c x = some c') :
    c'.lx = Function.update c.lx x (rowScan W x).1 ∧ ∀ y, c.ly y = 0 → c'.ly y = 0 := by
  have key : ∀ y, c.ly y = 0 → Function.update c.ly x 0 y = 0 := by
    intro y hy
    by_cases e : y = x
    · subst e; simp
    · simp [e, hy]
  unfold initRow at h
  simp only at h
  split at h
  · cases h
  · split at h
    · cases h; exact ⟨rfl, key⟩
    · split at h
      · cases h; exact ⟨rfl, key⟩
      · cases h; exact ⟨rfl, key⟩

theorem init_lx {W : Mat K n} : ∀ (l : List (Fin n)) (c c' : Core K n), l.foldlM (initRow W) c = some c' →
    (∀ y, c.ly y = 0) →
    (∀ y, c'.ly y = 0) ∧ (∀ x ∈ l, c'.lx x = (rowScan W x).1) ∧ ∀ x, c'.lx x = c.lx x ∨ c'.lx x = (rowScan W x).1 := by
  intro l
  induction l with
  | nil => intro c c' h h0; cases h; exact ⟨h0, by simp, fun x => Or.inl rfl⟩
  | cons x l ih =>
    intro c c' h h0
    rw [List.foldlM_cons] at h
    cases he : initRow W c x with
    | none => rw [he] at h; cases h
    | some c1 =>
      rw [he] at h
      obtain ⟨e1, e2⟩ := initRow_lx he
      obtain ⟨g1, g2, g3⟩ := ih c1 c' h (fun y => e2 y (h0 y))
      have hx : ∀ z, c1.lx z = c.lx z ∨ c1.lx z = (rowScan W z).1 := by
        intro z
        rw [e1]
        by_cases e : z = x
        · subst e; simp
        · simp [e]
      refine ⟨g1, ?_, ?_⟩
      · intro z hz
        rcases List.mem_cons.1 hz with rfl | hz
        · rcases g3 z with h1 | h1
          · rw [h1, e1]; simp
          · exact h1
        · exact g2 z hz
      · intro z
        rcases g3 z with h1 | h1
        · rw [h1]; exact hx z
        · exact Or.inr h1

theorem init_gc {W : Mat K n} (hW : WOk g M W) (hD0 : Fin n → 0 ≤ D) {c : Core K n} (h : init W = some c) : GC g M D c := by
  obtain ⟨h1, h2, -⟩ := init_lx _ _ _ h (fun _ => rfl)
  have hx : ∀ x, ∃ y, c.lx x = W x y := by
    intro x
    obtain ⟨y, hy, -⟩ := rowScan_spec W hW.nonneg x
    exact ⟨y, by rw [h2 x (List.mem_finRange x), hy]⟩
  refine ⟨?_, ?_, ?_, ?_, ?_, ?_, ?_⟩
  · intro x; obtain ⟨y, e⟩ := hx x; rw [e]; exact hW.mul x y
  · intro y; rw [h1]; exact Mul.zero
  · intro x; obtain ⟨y, e⟩ := hx x; rw [e]; exact hW.nonneg x y
  · intro x; obtain ⟨y, e⟩ := hx x; rw [e]; exact hW.le x y
  · intro y; rw [h1]
  · intro y; rw [h1]; exact hD0 y
  · intro y _; exact h1 y

/-- Any matrix: the labels of columns stay below the greatest entry. -/
theorem cap_plain {W : Mat K n} (hW : WOk g M W) (htol : (tolE : K) ≤ g) : Cap W g M M := by
  intro c t a hc hI hT ha y hy
  obtain ⟨x, g1, g2⟩ := hT.tMatched y hy
  obtain ⟨y0, hy0f, hy0T⟩ := safe_notT hI.cons ⟨hT.free, hT.rootS, hT.tMatched, hT.sMatched, hT.tNS⟩
  have g3 := (hI.cons x y).2 g1
  have g4 := hI.tight x y g3
  have g5 := hI.feas x y
  have g6 : Hungarian.sl W c x y = 0 :=
    ((sl_mul hW hc x y).lt_iff tolE_pos htol).1 (by rw [abs_of_nonneg g5]; exact g4)
  have g7 := ha x y0 g2 hy0f hy0T
  have g8 := hW.le x y
  have g9 := hW.nonneg x y0
  have g10 := hc.free y0 hy0f
  unfold Hungarian.sl at g6 g7
  rw [g10] at g7
  linarith

/-- A matrix whose entries outside one row are at least `L`: the labels of columns stay below the spread `M - L`. -/
theorem cap_row {W : Mat K n} (hW : WOk g M W) (htol : (tolE : K) ≤ g) (r : Fin n) {L : K}
    (hL : ∀ x y, x ≠ r → L ≤ W x y) : Cap W g M (M - L) := by
  intro c t a hc hI hT ha y hy
  obtain ⟨x, g1, g2⟩ := hT.tMatched y hy
  obtain ⟨y0, hy0f, hy0T⟩ := safe_notT hI.cons ⟨hT.free, hT.rootS, hT.tMatched, hT.sMatched, hT.tNS⟩
  have key : ∃ x, x ≠ r ∧ t.S x = true ∧ Hungarian.sl W c x y = 0 := by
    have z : ∀ x, |Hungarian.sl W c x y| < tolE → Hungarian.sl W c x y = 0 :=
      fun x hx => ((sl_mul hW hc x y).lt_iff tolE_pos htol).1 hx
    by_cases hx : x = r
    · -- the row that reached `y` in the tree
      subst hx
      have hR := hT.reach x g2
      cases hR with
      | root => exact absurd hT.free (by rw [(hI.cons _ _).2 g1]; simp)
      | @step x' y' _ h1 h2 h3 h4 h5 h6 =>
        have e : y' = y := by
          have e1 := (hI.cons _ _).2 h4
          rw [(hI.cons _ _).2 g1] at e1
          exact (Option.some.inj e1).symm
        subst e
        refine ⟨x', ?_, ?_, z x' h2⟩
        · rintro rfl
          exact h3 ((hI.cons _ _).2 g1)
        · cases h1 with
          | root => exact hT.rootS
          | step _ _ _ _ k5 _ => exact k5
    · exact ⟨x, hx, g2, z x (by rw [abs_of_nonneg (hI.feas x y)]; exact hI.tight x y ((hI.cons x y).2 g1))⟩
  obtain ⟨x, hx, hS, g6⟩ := key
  have g7 := ha x y0 hS hy0f hy0T
  have g8 := hW.le x y
  have g9 := hL x y0 hx
  have g10 := hc.free y0 hy0f
  unfold Hungarian.sl at g6 g7
  rw [g10] at g7
  linarith

/-! ### Pre- and postprocessing -/

theorem foldl_min_mem {α : Type*} (f : α → K) (l : List α) (o : K) :
    l.foldl (fun o y => if f y < o then f y else o) o = o ∨
    ∃ y ∈ l, l.foldl (fun o y => if f y < o then f y else o) o = f y := by
  induction l generalizing o with
  | nil => exact Or.inl rfl
  | cons y l ih =>
    simp only [List.foldl_cons]
    rcases ih (if f y < o then f y else o) with h | ⟨z, hz, h⟩
    · rw [h]
      split
      · exact Or.inr ⟨y, List.mem_cons_self, rfl⟩
      · exact Or.inl rfl
    · exact Or.inr ⟨z, List.mem_cons_of_mem _ hz, h⟩

theorem offsetOf_mem (C : Mat K n) : offsetOf C = 0 ∨ ∃ x y, offsetOf C = C x y := by
  have key : ∀ (l : List (Fin n)) (o : K),
      l.foldl (fun o x => (List.finRange n).foldl (fun o y => if C x y < o then C x y else o) o) o = o ∨
      ∃ x y, l.foldl (fun o x => (List.finRange n).foldl (fun o y => if C x y < o then C x y else o) o) o = C x y := by
    intro l
    induction l with
    | nil => intro o; exact Or.inl rfl
    | cons x l ih =>
      intro o
      simp only [List.foldl_cons]
      rcases ih ((List.finRange n).foldl (fun o y => if C x y < o then C x y else o) o) with h | h
      · rw [h]
        rcases foldl_min_mem (C x) (List.finRange n) o with h1 | ⟨y, -, h1⟩
        · exact Or.inl h1
        · exact Or.inr ⟨x, y, h1⟩
      · exact Or.inr h
  exact key (List.finRange n) 0

theorem offsetOf_nonpos (C : Mat K n) : offsetOf C ≤ 0 := by
  have key : ∀ (l : List (Fin n)) (o : K),
      l.foldl (fun o x => (List.finRange n).foldl (fun o y => if C x y < o then C x y else o) o) o ≤ o := by
    intro l
    induction l with
    | nil => intro o; exact le_refl _
    | cons x l ih =>
      intro o
      simp only [List.foldl_cons]
      exact le_trans (ih _) (foldl_min_le (C x) (List.finRange n) o).1
  exact key (List.finRange n) 0

/-- Without rounding in the subtraction of the offset: the exact preprocessing, with values from `0` to `2 * B`. -/
theorem preprocess_eq (h : Ok rd g (2 * (2 * M))) {C : Mat K n} (hm : ∀ x y, Mul g (C x y)) (hB : ∀ x y, |C x y| ≤ M)
    (m : Bool) :
    preprocess rd C m = Hungarian.preprocess C m ∧ WOk g (2 * M) (Hungarian.preprocess C m).1 ∧
    restore rd (Hungarian.preprocess C m).1 (Hungarian.preprocess C m).2 m
      = Hungarian.restore (Hungarian.preprocess C m).1 (Hungarian.preprocess C m).2 m := by
  have main : ∀ D : Mat K n, (∀ x y, Mul g (D x y)) → (∀ x y, |D x y| ≤ M) →
      (∀ x y, rd (D x y - offsetOf D) = D x y - offsetOf D) ∧ WOk g (2 * M) (fun x y => D x y - offsetOf D) ∧
      (∀ x y, rd (D x y - offsetOf D + offsetOf D) = D x y - offsetOf D + offsetOf D) := by
    intro D h1 h2
    have ho : Mul g (offsetOf D) := by
      rcases offsetOf_mem D with e | ⟨x, y, e⟩
      · rw [e]; exact Mul.zero
      · rw [e]; exact h1 x y
    have hb : ∀ x y, D x y - offsetOf D ≤ 2 * M ∧ 0 ≤ D x y - offsetOf D := by
      intro x y
      have a1 := (abs_le.1 (h2 x y)).2
      have a2 := (abs_le.1 (h2 x y)).1
      have a3 := offsetOf_le D x y
      refine ⟨?_, by linarith⟩
      rcases offsetOf_mem D with e | ⟨x', y', e⟩
      · rw [e]; linarith
      · rw [e]; have := (abs_le.1 (h2 x' y')).1; linarith
    have hw : WOk g (2 * M) (fun x y => D x y - offsetOf D) :=
      ⟨fun x y => (h1 x y).sub ho, fun x y => (hb x y).2, fun x y => (hb x y).1⟩
    refine ⟨fun x y => ?_, hw, fun x y => ?_⟩
    · have := hb x y
      exact h.fix _ ((h1 x y).sub ho) (by rw [abs_le]; constructor <;> linarith [this.1, this.2])
    · have := h2 x y
      have a0 : 0 ≤ M := le_trans (abs_nonneg _) this
      exact h.fix _ (((h1 x y).sub ho).add ho) (by rw [sub_add_cancel]; linarith)
  cases m
  · obtain ⟨h1, h2, h3⟩ := main (fun x y => C x y * (-1)) (fun x y => (hm x y).neg)
      (fun x y => by rw [mul_neg_one, abs_neg]; exact hB x y)
    refine ⟨?_, h2, ?_⟩
    · unfold preprocess Hungarian.preprocess
      simp only [Bool.false_eq_true, if_false, h1]
    · unfold restore Hungarian.restore Hungarian.preprocess
      simp only [Bool.false_eq_true, if_false, h3]
  · obtain ⟨h1, h2, h3⟩ := main C hm hB
    refine ⟨?_, h2, ?_⟩
    · unfold preprocess Hungarian.preprocess
      simp only [if_true, h1]
    · unfold restore Hungarian.restore Hungarian.preprocess
      simp only [if_true, h3]

theorem foldl_round {B : K} (h : Ok rd g B) (f : Fin n → K) (hf : ∀ x, Mul g (f x)) (hM : ∀ x, |f x| ≤ M) :
    ∀ (l : List (Fin n)) (s : K), Mul g s → |s| + l.length * M ≤ B →
      l.foldl (fun s x => rd (s + f x)) s = l.foldl (fun s x => s + f x) s := by
  intro l
  induction l with
  | nil => intro s _ _; rfl
  | cons x l ih =>
    intro s hs hb
    have a0 : 0 ≤ M := le_trans (abs_nonneg _) (hM x)
    have a1 : |s + f x| ≤ |s| + M := le_trans (abs_add_le _ _) (by have := hM x; linarith)
    simp only [List.length_cons, Nat.cast_add, Nat.cast_one] at hb
    have a2 : 0 ≤ (l.length : K) * M := mul_nonneg (Nat.cast_nonneg _) a0
    simp only [List.foldl_cons]
    rw [h.fix _ (hs.add (hf x)) (by nlinarith)]
    exact ih _ (hs.add (hf x)) (by nlinarith)

/-- The complete run does not round. -/
theorem run_eq {B : K} (h : Ok rd g B) (C : Mat K n) (hm : ∀ x y, Mul g (C x y)) (hB : ∀ x y, |C x y| ≤ M)
    (h4 : 4 * M ≤ B) (hn : n * M ≤ B) (m : Bool) (fuel : Nat) :
    run rd C m fuel = Hungarian.run C m fuel := by
  have h' : Ok rd g (2 * (2 * M)) := ⟨fun z hz hb => h.fix z hz (by linarith), h.sPos, h.sLe, h.ePos, h.eLe, h.tol⟩
  obtain ⟨e1, e2, e3⟩ := preprocess_eq h' hm hB m
  obtain ⟨c0, e0, hc0⟩ := init_spec (Hungarian.preprocess_nonneg C m)
  unfold run Hungarian.run
  simp only [e1, e0]
  have h'' : Ok rd g (2 * M + 2 * M) := by rw [← two_mul]; exact h'
  have hM0 : Fin n → 0 ≤ 2 * M := fun x => le_trans (e2.nonneg x x) (e2.le x x)
  refine loop_eq h'' e2 (cap_plain e2 h.tol) e3 ?_ fuel c0 none (init_gc e2 hM0 e0) hc0 (by simp)
  intro soln
  rw [restore_preprocess]
  exact foldl_round h (fun x => C x (soln x)) (fun x => hm x _) (fun x => hB x _) (List.finRange n) 0 Mul.zero
    (by simpa using hn)

end

end HungDbl
end RFS
