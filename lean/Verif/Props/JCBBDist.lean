import Verif.Model.JCBBDist
import Mathlib.Data.Matrix.ColumnRowPartitioned
import Mathlib.LinearAlgebra.Matrix.SchurComplement
import Mathlib.Tactic.NoncommRing
import Mathlib.Tactic.Abel
import Mathlib.Tactic.FinCases
import Mathlib.Tactic.Linarith
import Mathlib.Tactic.FieldSimp
import Mathlib.Tactic.Ring

/-!
Property C252: the joint Mahalanobis distance of JCBB.
-/

namespace RFS
namespace JCBBDistProps
open JCBB Matrix

variable {d r l : Nat}

/-! ### specification -/

/-- Number of the stacked vector a component belongs to, from 0. -/
def blk : (k : Nat) → Ix d k → Nat
  | 0, x => x.elim
  | k + 1, x => Sum.elim (blk k) (fun _ => k) x

/-- Which component of its vector a component is. -/
def co : (k : Nat) → Ix d k → Fin d
  | 0, x => x.elim
  | k + 1, x => Sum.elim (co k) id x

/-- The components of `k` stacked vectors are the pairs of a number below `k` and a component. -/
theorem ix_bijective (k : Nat) : Function.Injective (fun x : Ix d k => (blk k x, co k x)) ∧
    ∀ n : Nat, ∀ a : Fin d, n < k → ∃ x : Ix d k, blk k x = n ∧ co k x = a := by
  have hb : ∀ (k : Nat) (x : Ix d k), blk k x < k := by
    intro k
    induction k with
    | zero => intro x; exact x.elim
    | succ k ih =>
      intro x
      rcases x with x | x
      · exact (ih x).trans (Nat.lt_succ_self k)
      · exact Nat.lt_succ_self k
  induction k with
  | zero => exact ⟨fun x => x.elim, fun n a h => absurd h (Nat.not_lt_zero n)⟩
  | succ k ih =>
    constructor
    · rintro (x | x) (y | y) h
      · exact congrArg Sum.inl (ih.1 h)
      · have h1 : blk k x = k := (Prod.mk.inj h).1
        exact absurd (hb k x) (by omega)
      · have h1 : k = blk k y := (Prod.mk.inj h).1
        exact absurd (hb k y) (by omega)
      · exact congrArg Sum.inr (Prod.mk.inj h).2
    · intro n a h
      rcases Nat.lt_succ_iff_lt_or_eq.1 h with h | rfl
      · obtain ⟨x, h1, h2⟩ := ih.2 n a h
        exact ⟨Sum.inl x, h1, h2⟩
      · exact ⟨Sum.inr a, rfl, rfl⟩

/-- The covariance of the estimate: the dense one, or that of independent pose and landmarks. -/
def est (e : Env d r l) : Est r l := e.dense.getD ⟨e.P, 0, 0, fun i j => if i = j then e.Pm i else 0⟩

/-- Covariance of the expected measurements of landmarks `i` and `j`, before the noise. -/
def cov (e : Env d r l) (i j : Nat) : Matrix (Fin d) (Fin d) ℝ :=
  e.Hp i * (est e).rr * (e.Hp j)ᵀ + e.Hp i * (est e).rm j * (e.Hl j)ᵀ + e.Hl i * (est e).mr i * (e.Hp j)ᵀ + e.Hl i * (est e).mm i j * (e.Hl j)ᵀ

/-- The pairings of a path, first measurement first: landmark and innovation. -/
def pairs (e : Env d r l) : Path → List (Nat × (Fin d → ℝ))
  | [] => []
  | none :: p => pairs e p
  | some m :: p => pairs e p ++ [(m, e.z p.length - e.zp m)]

/-- Covariance of the stacked innovations: the noise is independent between measurements. -/
def jointCov (e : Env d r l) (ps : List (Nat × (Fin d → ℝ))) : Matrix (Ix d ps.length) (Ix d ps.length) ℝ := fun x y =>
  cov e (ps.getD (blk _ x) (0, 0)).1 (ps.getD (blk _ y) (0, 0)).1 (co _ x) (co _ y) + if blk _ x = blk _ y then e.Q (co _ x) (co _ y) else 0

/-- The stacked innovations. -/
def stacked (ps : List (Nat × (Fin d → ℝ))) : Ix d ps.length → ℝ := fun x => (ps.getD (blk _ x) (0, 0)).2 (co _ x)

/-- `D` is the joint squared Mahalanobis distance of the pairings. -/
def IsJoint (e : Env d r l) (ps : List (Nat × (Fin d → ℝ))) (D : ℝ) : Prop :=
  (jointCov e ps).det ≠ 0 ∧ D = stacked ps ⬝ᵥ (jointCov e ps)⁻¹ *ᵥ stacked ps

/-- The estimate's covariance and the noise are symmetric. -/
structure Symm (e : Env d r l) : Prop where
  rr : ((est e).rr)ᵀ = (est e).rr
  mr : ∀ i, (est e).mr i = ((est e).rm i)ᵀ
  mm : ∀ i j, ((est e).mm i j)ᵀ = (est e).mm j i
  Q : e.Qᵀ = e.Q

/-! ### lemmas -/

theorem cov_symm (e : Env d r l) (h : Symm e) (i j : Nat) : (cov e i j)ᵀ = cov e j i := by
  unfold cov
  simp only [transpose_add, transpose_mul, transpose_transpose, h.rr, h.mm, h.mr, Matrix.mul_assoc]
  abel

theorem blk_lt : ∀ (k : Nat) (x : Ix d k), blk k x < k := by
  intro k
  induction k with
  | zero => intro x; exact x.elim
  | succ k ih =>
    intro x
    rcases x with x | x
    · exact (ih x).trans (Nat.lt_succ_self k)
    · exact Nat.lt_succ_self k

/-- Covariance with a list of pairings, of length `k`. -/
def covK (e : Env d r l) (ps : List (Nat × (Fin d → ℝ))) (k : Nat) : Matrix (Ix d k) (Ix d k) ℝ := fun x y =>
  cov e (ps.getD (blk _ x) (0, 0)).1 (ps.getD (blk _ y) (0, 0)).1 (co _ x) (co _ y) + if blk _ x = blk _ y then e.Q (co _ x) (co _ y) else 0

def stK (ps : List (Nat × (Fin d → ℝ))) (k : Nat) : Ix d k → ℝ := fun x => (ps.getD (blk _ x) (0, 0)).2 (co _ x)

theorem isJoint_iff (e : Env d r l) (ps : List (Nat × (Fin d → ℝ))) (k : Nat) (hk : ps.length = k) (D : ℝ) :
    IsJoint e ps D ↔ (covK e ps k).det ≠ 0 ∧ D = stK ps k ⬝ᵥ (covK e ps k)⁻¹ *ᵥ stK ps k := by
  subst hk; rfl

/-- Row of the covariance of a new pairing with the earlier ones. -/
def rowK (e : Env d r l) (m : Nat) (ps : List (Nat × (Fin d → ℝ))) (k : Nat) : Matrix (Fin d) (Ix d k) ℝ := fun a y =>
  cov e m (ps.getD (blk _ y) (0, 0)).1 a (co _ y)

theorem getD_append_lt {α : Type} (l : List α) (a b : α) (i : Nat) (h : i < l.length) : (l ++ [a]).getD i b = l.getD i b := by
  simp [List.getD, List.getElem?_append_left h]

theorem getD_append_eq {α : Type} (l : List α) (a b : α) : (l ++ [a]).getD l.length b = a := by simp [List.getD]

theorem covK_succ (e : Env d r l) (hs : Symm e) (ps : List (Nat × (Fin d → ℝ))) (m : Nat) (v : Fin d → ℝ) :
    covK e (ps ++ [(m, v)]) (ps.length + 1) = fromBlocks (covK e ps ps.length) (rowK e m ps ps.length)ᵀ (rowK e m ps ps.length) (cov e m m + e.Q) := by
  funext x y
  rcases x with x | x <;> rcases y with y | y
  · have hx := blk_lt _ x
    have hy := blk_lt _ y
    show cov e ((ps ++ [(m, v)]).getD (blk _ x) (0, 0)).1 ((ps ++ [(m, v)]).getD (blk _ y) (0, 0)).1 (co _ x) (co _ y) + _ = _
    rw [getD_append_lt _ _ _ _ hx, getD_append_lt _ _ _ _ hy]
    rfl
  · have hx := blk_lt _ x
    show cov e ((ps ++ [(m, v)]).getD (blk _ x) (0, 0)).1 ((ps ++ [(m, v)]).getD ps.length (0, 0)).1 (co _ x) y + (if blk _ x = ps.length then _ else _) =
      cov e m (ps.getD (blk _ x) (0, 0)).1 y (co _ x)
    rw [getD_append_lt _ _ _ _ hx, getD_append_eq, if_neg (by omega), add_zero, ← cov_symm e hs]
    rfl
  · have hy := blk_lt _ y
    show cov e ((ps ++ [(m, v)]).getD ps.length (0, 0)).1 ((ps ++ [(m, v)]).getD (blk _ y) (0, 0)).1 x (co _ y) + (if ps.length = blk _ y then _ else _) =
      cov e m (ps.getD (blk _ y) (0, 0)).1 x (co _ y)
    rw [getD_append_lt _ _ _ _ hy, getD_append_eq, if_neg (by omega), add_zero]
  · show cov e ((ps ++ [(m, v)]).getD ps.length (0, 0)).1 ((ps ++ [(m, v)]).getD ps.length (0, 0)).1 x y + (if ps.length = ps.length then _ else _) =
      cov e m m x y + e.Q x y
    rw [getD_append_eq, if_pos rfl]
    rfl

theorem stK_succ (ps : List (Nat × (Fin d → ℝ))) (m : Nat) (v : Fin d → ℝ) :
    stK (ps ++ [(m, v)]) (ps.length + 1) = Sum.elim (stK ps ps.length) v := by
  funext x
  rcases x with x | x
  · have hx := blk_lt _ x
    show ((ps ++ [(m, v)]).getD (blk _ x) (0, 0)).2 (co _ x) = (ps.getD (blk _ x) (0, 0)).2 (co _ x)
    rw [getD_append_lt _ _ _ _ hx]
  · show ((ps ++ [(m, v)]).getD ps.length (0, 0)).2 x = v x
    rw [getD_append_eq]

/-- The step of the recursion: the block inverse and the quadratic form. -/
theorem schur {ι κ : Type} [Fintype ι] [DecidableEq ι] [Fintype κ] [DecidableEq κ] (S Si : Matrix ι ι ℝ) (W : Matrix κ ι ℝ) (C N : Matrix κ κ ℝ)
    (h1 : S * Si = 1) (hsi : Siᵀ = Si) (hN : (C - W * Si * Wᵀ) * N = 1) (hC : Cᵀ = C) :
    let L := -N * W * Si
    fromBlocks S Wᵀ W C * fromBlocks (Si + Lᵀ * N⁻¹ * L) Lᵀ L N = 1 ∧ Nᵀ = N ∧
      (fromBlocks (Si + Lᵀ * N⁻¹ * L) Lᵀ L N)ᵀ = fromBlocks (Si + Lᵀ * N⁻¹ * L) Lᵀ L N := by
  intro L
  have hN' : N * (C - W * Si * Wᵀ) = 1 := mul_eq_one_comm.1 hN
  have hinv : N⁻¹ = C - W * Si * Wᵀ := inv_eq_right_inv hN'
  have hX : (C - W * Si * Wᵀ)ᵀ = C - W * Si * Wᵀ := by
    simp only [transpose_sub, transpose_mul, transpose_transpose, hC, hsi, Matrix.mul_assoc]
  have hNt : Nᵀ = N := by
    have h2 : Nᵀ * (C - W * Si * Wᵀ) = 1 := by
      have := congrArg transpose hN
      rwa [transpose_mul, hX, transpose_one] at this
    calc Nᵀ = Nᵀ * ((C - W * Si * Wᵀ) * N) := by rw [hN, Matrix.mul_one]
      _ = N := by rw [← Matrix.mul_assoc, h2, Matrix.one_mul]
  have hLt : Lᵀ = -(Si * Wᵀ * N) := by
    simp only [L, transpose_mul, transpose_neg, hNt, hsi, Matrix.mul_assoc, Matrix.mul_neg, Matrix.neg_mul]
  have hM : Lᵀ * N⁻¹ * L = Si * Wᵀ * N * W * Si := by
    rw [hLt, hinv]
    simp only [L, Matrix.neg_mul, Matrix.mul_neg, neg_neg]
    calc Si * Wᵀ * N * (C - W * Si * Wᵀ) * (N * W * Si) = Si * Wᵀ * N * ((C - W * Si * Wᵀ) * N) * W * Si := by simp only [Matrix.mul_assoc]
      _ = _ := by rw [hN, Matrix.mul_one]
  refine ⟨?_, hNt, ?_⟩
  · rw [fromBlocks_multiply, hM, hLt, ← fromBlocks_one]
    have e1 : S * (Si * Wᵀ * N * W * Si) = Wᵀ * N * W * Si := by
      calc S * (Si * Wᵀ * N * W * Si) = (S * Si) * (Wᵀ * N * W * Si) := by simp only [Matrix.mul_assoc]
        _ = _ := by rw [h1, Matrix.one_mul]
    have e2 : S * (Si * Wᵀ * N) = Wᵀ * N := by
      calc S * (Si * Wᵀ * N) = (S * Si) * (Wᵀ * N) := by simp only [Matrix.mul_assoc]
        _ = _ := by rw [h1, Matrix.one_mul]
    have e3 : C * N = 1 + W * Si * Wᵀ * N := by
      have := hN
      rw [Matrix.sub_mul] at this
      rw [← this]; abel
    congr 1
    · rw [Matrix.mul_add, h1, e1]
      simp only [L, Matrix.mul_neg, Matrix.neg_mul, Matrix.mul_assoc]
      abel
    · rw [Matrix.mul_neg, e2]
      abel
    · rw [Matrix.mul_add]
      have e4 : C * L = -((C * N) * W * Si) := by
        simp only [L, Matrix.mul_neg, Matrix.neg_mul, Matrix.mul_assoc]
      rw [e4, e3]
      simp only [Matrix.add_mul, Matrix.one_mul, Matrix.mul_assoc]
      abel
    · rw [Matrix.mul_neg, e3]
      simp only [Matrix.mul_assoc]
      abel
  · rw [fromBlocks_transpose, transpose_transpose, hNt, hM]
    congr 1
    simp only [transpose_add, transpose_mul, transpose_transpose, hsi, hNt, Matrix.mul_assoc]

theorem quad {ι κ : Type} [Fintype ι] [Fintype κ] (A M : Matrix ι ι ℝ) (L : Matrix κ ι ℝ) (N : Matrix κ κ ℝ) (x : ι → ℝ) (v : κ → ℝ) :
    Sum.elim x v ⬝ᵥ fromBlocks (A + M) Lᵀ L N *ᵥ Sum.elim x v = x ⬝ᵥ A *ᵥ x + x ⬝ᵥ M *ᵥ x + 2 * (v ⬝ᵥ L *ᵥ x) + v ⬝ᵥ N *ᵥ v := by
  rw [fromBlocks_mulVec, sumElim_dotProduct_sumElim]
  simp only [Sum.elim_comp_inl, Sum.elim_comp_inr, add_mulVec, dotProduct_add]
  have : x ⬝ᵥ Lᵀ *ᵥ v = v ⬝ᵥ L *ᵥ x := by
    rw [dotProduct_mulVec, vecMul_transpose, dotProduct_comm]
  rw [this]
  ring

theorem cur_eq (e : Env d r l) (h : e.dense = none) (m : Nat) : cur e m = cov e m m + e.Q := by
  unfold cur cov est
  simp only [h, Option.getD_none]
  split
  · rename_i hp
    simp [hp]
  · simp

theorem Wrow_eq (e : Env d r l) (m : Nat) (ps : List (Nat × (Fin d → ℝ))) : ∀ k, ps.length = k → (∀ x ∈ ps, cross e m x.1 = cov e m x.1) →
    Wrow e m (ps.map Prod.fst).reverse k = rowK e m ps k := by
  induction ps using List.reverseRecOn with
  | nil =>
    intro k hk _
    cases k with
    | zero => funext a x; exact x.elim
    | succ k => simp at hk
  | append_singleton ps a ih =>
    intro k hk hx
    cases k with
    | zero => simp at hk
    | succ k =>
      have hk' : ps.length = k := by simpa using hk
      have h1 := ih k hk' fun x hm => hx x (List.mem_append_left _ hm)
      have h2 := hx a (by simp)
      subst hk'
      rw [List.map_append, List.reverse_append]
      funext b y
      rcases y with y | y
      · have hy := blk_lt _ y
        show Wrow e m (ps.map Prod.fst).reverse ps.length b y = cov e m ((ps ++ [a]).getD (blk _ y) (0, 0)).1 b (co _ y)
        rw [h1, getD_append_lt _ _ _ _ hy]
        rfl
      · show cross e m a.1 b y = cov e m ((ps ++ [a]).getD ps.length (0, 0)).1 b y
        rw [h2, getD_append_eq]

theorem vec_eq (ps : List (Nat × (Fin d → ℝ))) : ∀ k, ps.length = k → vec (ps.map Prod.snd).reverse k = stK ps k := by
  induction ps using List.reverseRecOn with
  | nil =>
    intro k hk
    cases k with
    | zero => funext x; exact x.elim
    | succ k => simp at hk
  | append_singleton ps a ih =>
    intro k hk
    cases k with
    | zero => simp at hk
    | succ k =>
      have hk' : ps.length = k := by simpa using hk
      subst hk'
      rw [List.map_append, List.reverse_append, stK_succ, ← ih _ rfl]
      rfl

theorem inv?_some {ι : Type} [Fintype ι] [DecidableEq ι] {A N : Matrix ι ι ℝ} (h : inv? A = some N) : A * N = 1 := by
  unfold inv? at h
  split at h
  · cases h
  · rename_i hd
    cases h
    exact mul_nonsing_inv A (isUnit_iff_ne_zero.2 hd)

theorem pairs_none (e : Env d r l) (q : Path) : pairs e (none :: q) = pairs e q := rfl

theorem used_pairs (e : Env d r l) (q : Path) : used (q ++ [none]) = ((pairs e (q ++ [none])).map Prod.fst).reverse := by
  unfold used
  rw [List.dropLast_concat]
  induction q with
  | nil => rfl
  | cons a q ih =>
    cases a with
    | none => exact ih
    | some m =>
      show m :: List.filterMap id q = _
      rw [ih, List.cons_append, pairs, List.map_append, List.reverse_append]
      rfl

theorem used_pairs' (e : Env d r l) (q : Path) (m0 : Nat) : (used (q ++ [some m0])).length + 1 = (pairs e (q ++ [some m0])).length := by
  unfold used
  rw [List.dropLast_concat]
  induction q with
  | nil => rfl
  | cons a q ih =>
    cases a with
    | none => exact ih
    | some m =>
      rw [List.cons_append, pairs, List.length_append, ← ih]
      rfl

theorem innov_len (e : Env d r l) (p : Path) : ∀ nd, node e p = some nd → nd.innov = ((pairs e p).map Prod.snd).reverse := by
  induction p with
  | nil => intro nd h; cases h; rfl
  | cons a p ih =>
    cases a with
    | none => exact ih
    | some m =>
      intro nd h
      rw [node] at h
      obtain ⟨nd0, h0, h⟩ := Option.bind_eq_some_iff.1 h
      have h1 := ih nd0 h0
      have key : nd.innov = (e.z p.length - e.zp m) :: nd0.innov := by
        unfold extend at h
        simp only at h
        split at h
        · split at h
          · obtain ⟨N, -, h⟩ := Option.map_eq_some_iff.1 h
            rw [← h]
          · cases h
        · obtain ⟨N, -, h⟩ := Option.map_eq_some_iff.1 h
          rw [← h]
      rw [key, h1, pairs, List.map_append, List.reverse_append]
      rfl

theorem empty_core {ι κ : Type} [Fintype ι] [DecidableEq ι] [Fintype κ] [DecidableEq κ] [IsEmpty ι] (A : Matrix ι ι ℝ) (B : Matrix ι κ ℝ) (C : Matrix κ ι ℝ) (D N : Matrix κ κ ℝ)
    (h : D * N = 1) (hD : Dᵀ = D) (x : ι → ℝ) (v : κ → ℝ) (M : Matrix ι ι ℝ) :
    fromBlocks A B C D * fromBlocks 0 0 0 N = 1 ∧ (fromBlocks (0 : Matrix ι ι ℝ) 0 0 N)ᵀ = fromBlocks 0 0 0 N ∧
      x ⬝ᵥ M *ᵥ x + v ⬝ᵥ N *ᵥ v = Sum.elim x v ⬝ᵥ fromBlocks 0 0 0 N *ᵥ Sum.elim x v := by
  have hNt : Nᵀ = N := by
    have h2 : Nᵀ * D = 1 := by
      have := congrArg transpose h
      rwa [transpose_mul, hD, transpose_one] at this
    calc Nᵀ = Nᵀ * (D * N) := by rw [h, Matrix.mul_one]
      _ = N := by rw [← Matrix.mul_assoc, h2, Matrix.one_mul]
  refine ⟨?_, ?_, ?_⟩
  · rw [fromBlocks_multiply, ← fromBlocks_one]
    congr 1
    · exact Subsingleton.elim _ _
    · exact Subsingleton.elim _ _
    · exact Subsingleton.elim _ _
    · rw [Matrix.mul_zero, zero_add, h]
  · rw [fromBlocks_transpose, hNt, transpose_zero, transpose_zero, transpose_zero]
  · rw [fromBlocks_mulVec, sumElim_dotProduct_sumElim]
    simp [dotProduct]

/-- What a node holds when the first measurement is left out. -/
theorem node_inv (e : Env d r l) (hs : Symm e) (hu : e.unc) (q : Path) (hcur : ∀ m, some m ∈ q → cur e m = cov e m m + e.Q)
    (hx : ∀ m j, some m ∈ q → some j ∈ q → m ≠ j → cross e m j = cov e m j) (hn : ((pairs e (q ++ [none])).map Prod.fst).Nodup) :
    ∀ nd, node e (q ++ [none]) = some nd → ∃ Ci : Matrix (Ix d (pairs e (q ++ [none])).length) (Ix d (pairs e (q ++ [none])).length) ℝ,
      nd.inv = ⟨(pairs e (q ++ [none])).length, Ci⟩ ∧ covK e (pairs e (q ++ [none])) _ * Ci = 1 ∧ Ciᵀ = Ci ∧
        nd.d2 = stK (pairs e (q ++ [none])) _ ⬝ᵥ Ci *ᵥ stK (pairs e (q ++ [none])) _ := by
  induction q with
  | nil =>
    intro nd h
    cases h
    refine ⟨0, rfl, ?_, ?_, ?_⟩
    · funext x; exact x.elim
    · funext x; exact x.elim
    · rfl
  | cons a q ih =>
    cases a with
    | none => exact ih (fun m hm => hcur m (List.mem_cons_of_mem _ hm)) (fun m j hm hj => hx m j (List.mem_cons_of_mem _ hm) (List.mem_cons_of_mem _ hj)) hn
    | some m =>
      intro nd h
      have hpr : pairs e (some m :: q ++ [none]) = pairs e (q ++ [none]) ++ [(m, e.z (q ++ [none]).length - e.zp m)] := rfl
      rw [hpr, List.map_append, List.nodup_append] at hn
      obtain ⟨hn1, -, hn2⟩ := hn
      rw [List.cons_append, node] at h
      obtain ⟨nd0, h0, h⟩ := Option.bind_eq_some_iff.1 h
      obtain ⟨Ci, hi, hS, hsym, hd⟩ := ih (fun m hm => hcur m (List.mem_cons_of_mem _ hm))
        (fun m j hm hj => hx m j (List.mem_cons_of_mem _ hm) (List.mem_cons_of_mem _ hj)) hn1 nd0 h0
      have hlen := innov_len e _ nd0 h0
      have hus := used_pairs e q
      have hcm := hcur m (by simp)
      have hCt : (cur e m)ᵀ = cur e m := by rw [hcm, transpose_add, cov_symm e hs, hs.Q]
      have hmem : ∀ x ∈ pairs e (q ++ [none]), some x.1 ∈ q := by
        clear * -
        induction q with
        | nil => intro x hx; cases hx
        | cons b q ih =>
          cases b with
          | none => intro x hx; exact List.mem_cons_of_mem _ (ih x hx)
          | some j =>
            intro x hx
            rcases List.mem_append.1 (show x ∈ pairs e (q ++ [none]) ++ [(j, _)] from hx) with hx | hx
            · exact List.mem_cons_of_mem _ (ih x hx)
            · rw [List.mem_singleton.1 hx]; simp
      have hcross : ∀ x ∈ pairs e (q ++ [none]), cross e m x.1 = cov e m x.1 := by
        intro x hxm
        refine hx m x.1 (by simp) (List.mem_cons_of_mem _ (hmem x hxm)) fun he => ?_
        exact hn2 x.1 (List.mem_map.2 ⟨x, hxm, rfl⟩) m (by simp) he.symm
      have hrow := Wrow_eq e m (pairs e (q ++ [none])) _ rfl hcross
      have hvec := vec_eq (pairs e (q ++ [none])) _ rfl
      obtain ⟨inn, ⟨c, Ci'⟩, d2⟩ := nd0
      simp only at hi hlen hd
      cases hi
      generalize hv : e.z (q ++ [none]).length - e.zp m = v at h hpr
      have hS' := covK_succ e hs (pairs e (q ++ [none])) m v
      have hst := stK_succ (pairs e (q ++ [none])) m v
      have goal : ∃ Cn : Matrix (Ix d ((pairs e (q ++ [none])).length + 1)) (Ix d ((pairs e (q ++ [none])).length + 1)) ℝ,
          nd.inv = ⟨(pairs e (q ++ [none])).length + 1, Cn⟩ ∧ covK e (pairs e (q ++ [none]) ++ [(m, v)]) ((pairs e (q ++ [none])).length + 1) * Cn = 1 ∧ Cnᵀ = Cn ∧
            nd.d2 = stK (pairs e (q ++ [none]) ++ [(m, v)]) _ ⬝ᵥ Cn *ᵥ stK (pairs e (q ++ [none]) ++ [(m, v)]) _ := by
        rw [hS', hst]
        rw [extend, hv, hus] at h
        simp only at h
        split at h
        · rename_i hc
          split at h
          · obtain ⟨N, hN, rfl⟩ := Option.map_eq_some_iff.1 h
            rw [hrow] at hN ⊢
            rw [hlen, hvec]
            have h3 := inv?_some hN
            obtain ⟨a1, a2, a3⟩ := schur _ Ci _ _ N hS hsym h3 hCt
            refine ⟨_, rfl, ?_, a3, ?_⟩
            · rw [← hcm]; exact a1
            · refine Eq.trans ?_ (quad _ _ _ _ _ _).symm
              rw [hd]
          · cases h
        · rename_i hc
          have hnil : pairs e (q ++ [none]) = [] := by
            by_contra hne
            exact hc ⟨by simpa using hne, hu⟩
          obtain ⟨N, hN, rfl⟩ := Option.map_eq_some_iff.1 h
          have h3 := inv?_some hN
          rw [hd]
          clear hd hvec hrow hS hsym hst hS' hcross hmem h h0 hlen hus hn1 hn2 hpr ih hcur hx
          generalize pairs e (q ++ [none]) = ps at *
          subst hnil
          haveI : IsEmpty (Ix d ([] : List (Nat × (Fin d → ℝ))).length) := inferInstanceAs (IsEmpty Empty)
          obtain ⟨a1, a2, a3⟩ := empty_core (covK e [] ([] : List (Nat × (Fin d → ℝ))).length) (rowK e m [] _)ᵀ (rowK e m [] _) _ N h3 hCt (stK [] _) v Ci
          refine ⟨fromBlocks 0 0 0 N, ?_, ?_, a2, a3⟩
          · simp
          · rw [← hcm]; exact a1
      have hl1 : (pairs e (some m :: q ++ [none])).length = (pairs e (q ++ [none])).length + 1 := by rw [hpr]; simp
      rw [hpr]
      have : (pairs e (q ++ [none]) ++ [(m, v)]).length = (pairs e (q ++ [none])).length + 1 := by simp
      rw [this]
      exact goal

theorem isJoint_of (e : Env d r l) (ps : List (Nat × (Fin d → ℝ))) (k : Nat) (hk : ps.length = k) (Ci : Matrix (Ix d k) (Ix d k) ℝ) (D : ℝ)
    (h : covK e ps k * Ci = 1) (hD : D = stK ps k ⬝ᵥ Ci *ᵥ stK ps k) : IsJoint e ps D := by
  rw [isJoint_iff e ps k hk]
  refine ⟨fun h0 => ?_, by rw [inv_eq_right_inv h]; exact hD⟩
  have := congrArg det h
  rw [det_mul, h0, zero_mul, det_one] at this
  exact zero_ne_one this

theorem diag_core {ι κ : Type} [Fintype ι] [DecidableEq ι] [Fintype κ] [DecidableEq κ] (S Si : Matrix ι ι ℝ) (C N : Matrix κ κ ℝ)
    (h : S * Si = 1) (h' : C * N = 1) (x : ι → ℝ) (v : κ → ℝ) :
    fromBlocks S 0 0 C * fromBlocks Si 0 0 N = 1 ∧ x ⬝ᵥ Si *ᵥ x + v ⬝ᵥ N *ᵥ v = Sum.elim x v ⬝ᵥ fromBlocks Si 0 0 N *ᵥ Sum.elim x v := by
  refine ⟨?_, ?_⟩
  · rw [fromBlocks_multiply, ← fromBlocks_one, h, h']
    simp
  · rw [fromBlocks_mulVec, sumElim_dotProduct_sumElim]
    simp

theorem certain_inv (e : Env d r l) (hs : Symm e) (hb : e.dense = none) (hP : e.P = 0) (p : Path)
    (hdet : ∀ m, some m ∈ p → (e.Hl m * e.Pm m * (e.Hl m)ᵀ + e.Q).det ≠ 0) (hn : ((pairs e p).map Prod.fst).Nodup) :
    ∃ nd, node e p = some nd ∧ ∃ Ci : Matrix (Ix d (pairs e p).length) (Ix d (pairs e p).length) ℝ,
      covK e (pairs e p) _ * Ci = 1 ∧ nd.d2 = stK (pairs e p) _ ⬝ᵥ Ci *ᵥ stK (pairs e p) _ := by
  induction p with
  | nil => exact ⟨_, rfl, 0, by funext x; exact x.elim, rfl⟩
  | cons a p ih =>
    cases a with
    | none => exact ih (fun m hm => hdet m (List.mem_cons_of_mem _ hm)) hn
    | some m =>
      have hpr : pairs e (some m :: p) = pairs e p ++ [(m, e.z p.length - e.zp m)] := rfl
      rw [hpr, List.map_append, List.nodup_append] at hn
      obtain ⟨hn1, -, hn2⟩ := hn
      obtain ⟨nd, h, Ci, h1, h2⟩ := ih (fun m hm => hdet m (List.mem_cons_of_mem _ hm)) hn1
      have hcm : cur e m = e.Hl m * e.Pm m * (e.Hl m)ᵀ + e.Q := by
        unfold cur
        rw [hb]
        exact if_pos hP
      have hd0 : (cur e m).det ≠ 0 := by rw [hcm]; exact hdet m (by simp)
      have hu : ¬ e.unc := by
        rintro (h | h)
        · exact h hb
        · exact h hP
      have hN : cur e m * (cur e m)⁻¹ = 1 := mul_nonsing_inv _ (isUnit_iff_ne_zero.2 hd0)
      have hnode : node e (some m :: p) = some ⟨(e.z p.length - e.zp m) :: nd.innov,
          if used p = [] then ⟨1, fromBlocks 0 0 0 (cur e m)⁻¹⟩ else ⟨0, 0⟩,
          nd.d2 + (e.z p.length - e.zp m) ⬝ᵥ (cur e m)⁻¹ *ᵥ (e.z p.length - e.zp m)⟩ := by
        rw [node, h, Option.bind_some, extend, if_neg (fun h => hu h.2), inv?, if_neg hd0]
        rfl
      refine ⟨_, hnode, ?_⟩
      have hrow : rowK e m (pairs e p) (pairs e p).length = 0 := by
        funext a y
        have hy := blk_lt _ y
        have hne : m ≠ ((pairs e p).getD (blk _ y) (0, 0)).1 := by
          intro he
          refine hn2 _ (List.mem_map.2 ⟨(pairs e p)[blk _ y], List.getElem_mem hy, rfl⟩) m (by simp) ?_
          have hg : (pairs e p).getD (blk _ y) (0, 0) = (pairs e p)[blk _ y] := by simp [List.getD, List.getElem?_eq_getElem hy]
          rw [hg] at he
          exact he.symm
        show cov e m _ a _ = 0
        unfold cov est
        rw [hb]
        simp only [Option.getD_none, hP, if_neg hne]
        simp
      obtain ⟨b1, b2⟩ := diag_core _ Ci _ _ h1 hN (stK (pairs e p) _) (e.z p.length - e.zp m)
      have hS := covK_succ e hs (pairs e p) m (e.z p.length - e.zp m)
      have hst := stK_succ (pairs e p) m (e.z p.length - e.zp m)
      rw [hpr]
      have hl : (pairs e p ++ [(m, e.z p.length - e.zp m)]).length = (pairs e p).length + 1 := by simp
      rw [hl, hS, hst, hrow, ← cur_eq e hb m]
      refine ⟨fromBlocks Ci 0 0 (cur e m)⁻¹, ?_, ?_⟩
      · exact b1
      · show nd.d2 + _ = _
        rw [h2]
        exact b2

/-! ### the property -/

/-- C252 (partial): with independent pose and landmarks and a pose without uncertainty, the distance of every hypothesis that uses no
landmark twice is its joint Mahalanobis distance. Missing: uncertain poses (C252_violated,
C252_undefined) and dense covariances (C252_dense_violated). -/
theorem C252_certain_partial (e : Env d r l) (hs : Symm e) (hb : e.dense = none) (hP : e.P = 0) (p : Path)
    (hdet : ∀ m, some m ∈ p → (e.Hl m * e.Pm m * (e.Hl m)ᵀ + e.Q).det ≠ 0) (hn : ((pairs e p).map Prod.fst).Nodup) :
    ∃ nd, node e p = some nd ∧ IsJoint e (pairs e p) nd.d2 := by
  obtain ⟨nd, h, Ci, h1, h2⟩ := certain_inv e hs hb hP p hdet hn
  exact ⟨nd, h, isJoint_of e _ _ rfl Ci _ h1 h2⟩

/-- C252 (partial), uncertain pose: if the first measurement is left out and the blocks computed for the landmarks of the hypothesis are
their covariances, then the distance, where it is defined, is the joint Mahalanobis distance: the recursion itself is right. -/
theorem C252_recursion_partial (e : Env d r l) (hs : Symm e) (hu : e.unc) (q : Path) (hcur : ∀ m, some m ∈ q → cur e m = cov e m m + e.Q)
    (hx : ∀ m j, some m ∈ q → some j ∈ q → m ≠ j → cross e m j = cov e m j) (hn : ((pairs e (q ++ [none])).map Prod.fst).Nodup)
    (nd : Nd d) (h : node e (q ++ [none]) = some nd) : IsJoint e (pairs e (q ++ [none])) nd.d2 := by
  obtain ⟨Ci, -, h1, -, h2⟩ := node_inv e hs hu q hcur hx hn nd h
  exact isJoint_of e _ _ rfl Ci _ h1 h2

/-- C252 (partial), the blocks: what the code computes for the cross-covariance of two pairings and for the covariance of one, compared with what they are. With a dense
covariance the former has the noise in excess and the latter lacks the correlation of pose and landmark; with independent ones the former uses the Jacobian of the wrong landmark as well. -/
theorem C252_blocks_partial (e : Env d r l) (m j : Nat) :
    (∀ s, e.dense = some s → cross e m j = cov e m j + e.Q ∧ cur e m + (e.Hp m * s.rm m * (e.Hl m)ᵀ + e.Hl m * s.mr m * (e.Hp m)ᵀ) = cov e m m + e.Q) ∧
    (e.dense = none → cur e m = cov e m m + e.Q ∧ (m ≠ j → cross e m j = cov e m j + e.Q + e.Hp m * e.P * (e.Hp m - e.Hp j)ᵀ)) := by
  refine ⟨fun s hs => ⟨?_, ?_⟩, fun hb => ⟨?_, fun hmj => ?_⟩⟩
  · simp only [cross, cov, est, hs, Option.getD_some, Matrix.add_mul]
    abel
  · simp only [cur, cov, est, hs, Option.getD_some]
    abel
  · simp only [cur, cov, est, hb, Option.getD_none]
    split
    · rename_i hP
      simp [hP]
    · simp
  · simp only [cross, cov, est, hb, Option.getD_none, if_neg hmj, Matrix.transpose_sub, Matrix.mul_sub]
    simp
    abel

/-- C252 (partial): without measurement noise and without correlation of pose and landmarks, the distance of a hypothesis that leaves out the first measurement is the joint Mahalanobis distance
where it is defined. -/
theorem C252_noiseless_partial (e : Env d r l) (hs : Symm e) (s : Est r l) (hd : e.dense = some s) (hQ : e.Q = 0) (hrm : ∀ i, s.rm i = 0) (q : Path)
    (hn : ((pairs e (q ++ [none])).map Prod.fst).Nodup) (nd : Nd d) (h : node e (q ++ [none]) = some nd) : IsJoint e (pairs e (q ++ [none])) nd.d2 := by
  have hmr : ∀ i, s.mr i = 0 := fun i => by
    have := hs.mr i
    simp only [est, hd, Option.getD_some] at this
    rw [this, hrm, Matrix.transpose_zero]
  refine C252_recursion_partial e hs (Or.inl (by simp [hd])) q (fun m _ => ?_) (fun m j _ _ _ => ?_) hn nd h
  · have := ((C252_blocks_partial e m m).1 s hd).2
    rwa [hrm, hmr, Matrix.mul_zero, Matrix.zero_mul, Matrix.mul_zero, Matrix.zero_mul, add_zero, add_zero] at this
  · rw [((C252_blocks_partial e m j).1 s hd).1, hQ, add_zero]

/-- With independent pose and landmarks, a hypothesis with one pairing has the Mahalanobis distance of that pairing. -/
theorem C252_single (e : Env d r l) (hb : e.dense = none) (m k n : Nat) (hdet : (cov e m m + e.Q).det ≠ 0) :
    ∃ nd, node e (List.replicate k none ++ some m :: List.replicate n none) = some nd ∧
      nd.d2 = (e.z n - e.zp m) ⬝ᵥ (cov e m m + e.Q)⁻¹ *ᵥ (e.z n - e.zp m) := by
  have h0 : ∀ n, node e (List.replicate n none) = some ⟨[], ⟨0, 0⟩, 0⟩ := by
    intro n
    induction n with
    | zero => rfl
    | succ n ih => rw [List.replicate_succ, node, ih]
  have hused : used (List.replicate n none) = [] := by
    unfold used
    rw [List.filterMap_eq_nil_iff]
    intro a ha
    have := List.mem_of_mem_dropLast ha
    rw [List.eq_of_mem_replicate this]
    rfl
  have h1 : node e (some m :: List.replicate n none) = some ⟨[e.z n - e.zp m], ⟨1, fromBlocks 0 0 0 (cov e m m + e.Q)⁻¹⟩,
      0 + (e.z n - e.zp m) ⬝ᵥ (cov e m m + e.Q)⁻¹ *ᵥ (e.z n - e.zp m)⟩ := by
    rw [node, h0, Option.bind_some, extend, hused, if_neg (fun h => h.1 rfl), cur_eq e hb, inv?, if_neg hdet, List.length_replicate]
    rfl
  refine ⟨⟨[e.z n - e.zp m], ⟨1, fromBlocks 0 0 0 (cov e m m + e.Q)⁻¹⟩, 0 + (e.z n - e.zp m) ⬝ᵥ (cov e m m + e.Q)⁻¹ *ᵥ (e.z n - e.zp m)⟩, ?_, zero_add _⟩
  induction k with
  | zero => exact h1
  | succ k ih => rw [List.replicate_succ, List.cons_append, node]; exact ih

/-- C252 (negation): with an uncertain pose, a hypothesis that pairs the first measurement and two others has no defined distance: the
stored inverse covariance lacks the first pairing and its size does not fit the stored innovation. -/
theorem C252_undefined (e : Env d r l) (hu : e.unc) (q : Path) (m0 : Nat) (h2 : 2 ≤ (q.filterMap id).length) : node e (q ++ [some m0]) = none := by
  induction q with
  | nil => simp at h2
  | cons a q ih =>
    cases a with
    | none => exact ih h2
    | some m =>
      rw [List.cons_append, node]
      by_cases hq : 2 ≤ (q.filterMap id).length
      · rw [ih hq]; rfl
      · have hq1 : (q.filterMap id).length + 1 = 2 := by
          have : (List.filterMap id (some m :: q)).length = (q.filterMap id).length + 1 := rfl
          omega
        have hus : used (q ++ [some m0]) = q.filterMap id := by unfold used; rw [List.dropLast_concat]
        cases hnd : node e (q ++ [some m0]) with
        | none => rfl
        | some nd =>
          have hl := innov_len e _ nd hnd
          have hl2 := used_pairs' e q m0
          rw [Option.bind_some, extend, if_pos ⟨by rw [hus]; intro h; rw [h] at hq1; simp at hq1, hu⟩, if_neg]
          rintro ⟨h, -⟩
          rw [hl] at h
          simp only [List.length_reverse, List.length_map] at h
          omega

/-- The gate has one degree of freedom per component when the first measurement is left out. -/
theorem C252_dof_partial (e : Env d r l) (q : Path) : dof d (q ++ [none]) = d * ((pairs e (q ++ [none])).length + 1) := by
  unfold dof
  rw [used_pairs e q, List.length_reverse, List.length_map, Nat.add_comm]

/-- C252 (negation): when the first measurement is paired, the gate has the degrees of freedom of one measurement less. -/
theorem C252_dof_violated (e : Env d r l) (q : Path) (m0 : Nat) : dof d (q ++ [some m0]) + d = d * ((pairs e (q ++ [some m0])).length + 1) := by
  unfold dof
  rw [← used_pairs' e q m0]
  ring

/-! ### a pose and landmarks on a line -/

/-- Two landmarks, all Jacobians and covariances 1, measurement noise `q`; all innovations 1 but that of the third measurement, which is -1. -/
def line (q : ℝ) : Env 1 1 1 :=
  ⟨fun n _ => if n = 2 then -1 else 1, fun _ _ => 0, fun _ => 1, fun _ => 1, of fun _ _ => q, 1, fun _ => 1, none⟩

theorem line_symm (q : ℝ) : Symm (line q) := by
  refine ⟨by simp [est, line], by simp [est, line], fun i j => ?_, rfl⟩
  simp only [est, line, Option.getD_none, eq_comm (a := j)]
  split <;> simp

theorem line_unc (q : ℝ) : (line q).unc := Or.inr (by simp [line])

theorem inv?_one {A : Matrix (Fin 1) (Fin 1) ℝ} (a : ℝ) (ha : a ≠ 0) (hA : A 0 0 = a) : inv? A = some (of fun _ _ => a⁻¹) := by
  have hd : A.det = a := by rw [det_fin_one, hA]
  have hi : A⁻¹ = of fun _ _ => a⁻¹ := by
    apply inv_eq_right_inv
    ext i j
    rw [Subsingleton.elim i 0, Subsingleton.elim j 0, mul_apply]
    simp [hA, ha]
  unfold inv?
  rw [if_neg (by rw [hd]; exact ha), hi]

theorem line_cur (q : ℝ) (m : Nat) : cur (line q) m 0 0 = 2 + q := by
  rw [cur_eq _ rfl]
  simp [cov, est, line]
  norm_num

theorem line_cross (q : ℝ) (m j : Nat) (a b : Fin 1) : cross (line q) m j a b = 1 + q := by
  rw [Subsingleton.elim a b]
  simp [cross, line]

theorem sum_ix_succ (k : Nat) (f : Ix d (k + 1) → ℝ) : ∑ y, f y = ∑ y : Ix d k, f (Sum.inl y) + ∑ y : Fin d, f (Sum.inr y) :=
  Fintype.sum_sum_type f

/-- The components of one and of two stacked numbers. -/
def i0 : Ix 1 1 := Sum.inr 0
def j0 : Ix 1 2 := Sum.inl i0
def j1 : Ix 1 2 := Sum.inr 0

theorem sum_ix (f : Ix 1 1 → ℝ) : ∑ y, f y = f i0 := by
  rw [sum_ix_succ, Fin.sum_univ_one]
  exact zero_add _

theorem sum_ix2 (f : Ix 1 2 → ℝ) : ∑ y, f y = f j0 + f j1 := by
  rw [sum_ix_succ, Fin.sum_univ_one, sum_ix]
  rfl

/-- Inverse covariance of one innovation. -/
def one1 (a : ℝ) : Matrix (Ix 1 1) (Ix 1 1) ℝ := fromBlocks 0 0 0 (of fun _ _ => a)

theorem one1_apply (a : ℝ) : one1 a i0 i0 = a := rfl

theorem line_first (q : ℝ) (hq : 2 + q ≠ 0) :
    node (line q) [some 0, none] = some ⟨[fun _ => 1], ⟨1, one1 (2 + q)⁻¹⟩, (2 + q)⁻¹⟩ := by
  have h0 : node (line q) [none] = some ⟨[], ⟨0, 0⟩, 0⟩ := rfl
  have hz : (line q).z [(none : Option Nat)].length - (line q).zp 0 = fun _ => 1 := by
    funext a
    simp [line]
  rw [node, h0, Option.bind_some, extend, if_neg (fun h => h.1 rfl), hz, inv?_one (2 + q) hq (line_cur q 0)]
  simp [used, dotProduct, mulVec, one1]

theorem line_second (q : ℝ) (hq : 2 + q ≠ 0) (c : ℝ) (hc : c = 2 + q - (1 + q) * (2 + q)⁻¹ * (1 + q)) (hc0 : c ≠ 0) :
    ∃ nd, node (line q) [some 1, some 0, none] = some nd ∧
      nd.d2 = (2 + q)⁻¹ + ((1 + q) * (2 + q)⁻¹) ^ 2 * c⁻¹ + 2 * ((1 + q) * (2 + q)⁻¹) * c⁻¹ + c⁻¹ := by
  have hz : (line q).z [some 0, (none : Option Nat)].length - (line q).zp 1 = fun _ => -1 := by
    funext a
    simp [line]
  have hW : ∀ a, Wrow (line q) 1 [0] 1 a i0 = 1 + q := by
    intro a
    exact line_cross q 1 0 a 0
  have hA : (cur (line q) 1 - Wrow (line q) 1 [0] 1 * one1 (2 + q)⁻¹ * (Wrow (line q) 1 [0] 1)ᵀ) 0 0 = c := by
    rw [hc, Matrix.sub_apply, line_cur, mul_apply, sum_ix, mul_apply, sum_ix, transpose_apply, hW, one1_apply]
  rw [node, line_first q hq, Option.bind_some, extend, if_pos ⟨by simp [used], line_unc q⟩, if_pos ⟨rfl, rfl⟩, hz]
  have hu : used [some 0, (none : Option Nat)] = [0] := rfl
  rw [hu]
  simp only
  rw [inv?_one c hc0 hA]
  refine ⟨_, rfl, ?_⟩
  have hNi : (of fun _ _ => c⁻¹ : Matrix (Fin 1) (Fin 1) ℝ)⁻¹ = of fun _ _ => c := by
    apply inv_eq_right_inv
    ext i j
    rw [Subsingleton.elim i 0, Subsingleton.elim j 0, mul_apply]
    simp [hc0]
  have hL : (-(of fun _ _ => c⁻¹ : Matrix (Fin 1) (Fin 1) ℝ) * Wrow (line q) 1 [0] 1 * one1 (2 + q)⁻¹) 0 i0 =
      -(c⁻¹ * (1 + q) * (2 + q)⁻¹) := by
    rw [mul_apply, sum_ix, mul_apply, Fin.sum_univ_one, hW, one1_apply]
    show -c⁻¹ * (1 + q) * (2 + q)⁻¹ = _
    ring
  show (2 + q)⁻¹ + vec [fun _ : Fin 1 => (1 : ℝ)] 1 ⬝ᵥ
        ((-(of fun _ _ => c⁻¹ : Matrix (Fin 1) (Fin 1) ℝ) * Wrow (line q) 1 [0] 1 * one1 (2 + q)⁻¹)ᵀ * (of fun _ _ => c⁻¹ : Matrix (Fin 1) (Fin 1) ℝ)⁻¹ *
          (-(of fun _ _ => c⁻¹ : Matrix (Fin 1) (Fin 1) ℝ) * Wrow (line q) 1 [0] 1 * one1 (2 + q)⁻¹)) *ᵥ vec [fun _ : Fin 1 => (1 : ℝ)] 1 +
      2 * ((fun _ : Fin 1 => (-1 : ℝ)) ⬝ᵥ (-(of fun _ _ => c⁻¹ : Matrix (Fin 1) (Fin 1) ℝ) * Wrow (line q) 1 [0] 1 * one1 (2 + q)⁻¹) *ᵥ vec [fun _ : Fin 1 => (1 : ℝ)] 1) +
      (fun _ : Fin 1 => (-1 : ℝ)) ⬝ᵥ (of fun _ _ => c⁻¹ : Matrix (Fin 1) (Fin 1) ℝ) *ᵥ (fun _ => -1) = _
  rw [hNi]
  generalize -(of fun _ _ => c⁻¹ : Matrix (Fin 1) (Fin 1) ℝ) * Wrow (line q) 1 [0] 1 * one1 (2 + q)⁻¹ = L at hL
  have hv : vec [fun _ : Fin 1 => (1 : ℝ)] 1 i0 = 1 := rfl
  simp only [dotProduct, mulVec, sum_ix, Fin.sum_univ_one, mul_apply, transpose_apply, hL, hv, of_apply]
  field_simp

/-- The landmarks of `line` without noise and with a dense covariance in which pose and landmarks are not correlated. -/
def lineD : Env 1 1 1 := { line 0 with dense := some ⟨1, fun _ => 0, fun _ => 0, fun i j => if i = j then 1 else 0⟩ }

theorem lineD_symm : Symm lineD := by
  refine ⟨by simp [est, lineD], by simp [est, lineD], fun i j => ?_, by ext; simp [lineD, line]⟩
  simp only [est, lineD, Option.getD_some, eq_comm (a := j)]
  split <;> simp

/-- The hypotheses of `C252_noiseless_partial` can be met, with two pairings. -/
example : Symm lineD ∧ lineD.Q = 0 ∧ ((pairs lineD ([some 1, some 0] ++ [none])).map Prod.fst).Nodup ∧ ∃ nd, node lineD ([some 1, some 0] ++ [none]) = some nd := by
  refine ⟨lineD_symm, by ext; simp [lineD, line], by simp [pairs], ?_⟩
  have h0 : node lineD [none] = some ⟨[], ⟨0, 0⟩, 0⟩ := rfl
  have hc : ∀ m, cur lineD m 0 0 = 2 := by intro m; simp [cur, lineD, line]; norm_num
  have hz : lineD.z [(none : Option Nat)].length - lineD.zp 0 = fun _ => 1 := by funext a; simp [lineD, line]
  have h1 : node lineD [some 0, none] = some ⟨[fun _ => 1], ⟨1, one1 2⁻¹⟩, 2⁻¹⟩ := by
    rw [node, h0, Option.bind_some, extend, if_neg (fun h => h.1 rfl), hz, inv?_one 2 (by norm_num) (hc 0)]
    simp [used, dotProduct, mulVec, one1]
  have hW : ∀ a, Wrow lineD 1 [0] 1 a i0 = 1 := by
    intro a
    show cross lineD 1 0 a 0 = 1
    rw [Subsingleton.elim a 0]
    simp [cross, lineD, line]
  have hA : (cur lineD 1 - Wrow lineD 1 [0] 1 * one1 2⁻¹ * (Wrow lineD 1 [0] 1)ᵀ) 0 0 = 3 / 2 := by
    rw [Matrix.sub_apply, hc, mul_apply, sum_ix, mul_apply, sum_ix, transpose_apply, hW, one1_apply]
    norm_num
  have hu : used [some 0, (none : Option Nat)] = [0] := rfl
  rw [show ([some 1, some 0] ++ [none] : Path) = [some 1, some 0, none] from rfl, node, h1, Option.bind_some, extend, if_pos ⟨by simp [used], Or.inl (by simp [lineD])⟩, if_pos ⟨rfl, rfl⟩, hu]
  simp only
  rw [inv?_one (3 / 2) (by norm_num) hA]
  exact ⟨_, rfl⟩

/-- C252 (negation): with an uncertain pose even a hypothesis that leaves out the first measurement has the wrong distance, 2 instead of 1:
the covariance between different measurements is taken to contain their noise, which is independent. -/
theorem C252_violated : ∃ nd, node (line 1) [some 1, some 0, none] = some nd ∧ nd.d2 = 2 ∧
    IsJoint (line 1) (pairs (line 1) [some 1, some 0, none]) 1 := by
  obtain ⟨nd, h, hd⟩ := line_second 1 (by norm_num) (5 / 3) (by norm_num) (by norm_num)
  refine ⟨nd, h, by rw [hd]; norm_num, ?_⟩
  have hp : pairs (line 1) [some 1, some 0, none] = [] ++ [(0, fun _ => 1)] ++ [(1, fun _ => -1)] := by
    simp only [pairs]
    have h1 : (line 1).z ([none] : Path).length - (line 1).zp 0 = fun _ => 1 := by funext a; simp [line]
    have h2 : (line 1).z ([some 0, none] : Path).length - (line 1).zp 1 = fun _ => -1 := by funext a; simp [line]
    rw [h1, h2]
  rw [hp]
  have hcov : ∀ i j, cov (line 1) i j 0 0 = if i = j then 2 else 1 := by
    intro i j
    by_cases hij : i = j
    · simp [cov, est, line, hij]; norm_num
    · simp [cov, est, line, hij]
  have hQ : (line 1).Q 0 0 = 1 := rfl
  have hS : ∀ x y : Ix 1 2, covK (line 1) ([] ++ [(0, fun _ => 1)] ++ [(1, fun _ => -1)]) 2 x y = if blk 2 x = blk 2 y then 3 else 1 := by
    intro x y
    unfold covK
    rw [Subsingleton.elim (co 2 x) 0, Subsingleton.elim (co 2 y) 0, hcov, hQ]
    rcases x with (x | x) | x
    · exact x.elim
    · rcases y with (y | y) | y
      · exact y.elim
      · show (if (0 : Nat) = 0 then (2 : ℝ) else 1) + (if (0 : Nat) = 0 then 1 else 0) = if (0 : Nat) = 0 then 3 else 1
        norm_num
      · show (if (0 : Nat) = 1 then (2 : ℝ) else 1) + (if (0 : Nat) = 1 then 1 else 0) = if (0 : Nat) = 1 then 3 else 1
        norm_num
    · rcases y with (y | y) | y
      · exact y.elim
      · show (if (1 : Nat) = 0 then (2 : ℝ) else 1) + (if (1 : Nat) = 0 then 1 else 0) = if (1 : Nat) = 0 then 3 else 1
        norm_num
      · show (if (1 : Nat) = 1 then (2 : ℝ) else 1) + (if (1 : Nat) = 1 then 1 else 0) = if (1 : Nat) = 1 then 3 else 1
        norm_num
  have b0 : blk 2 j0 = 0 := rfl
  have b1 : blk 2 j1 = 1 := rfl
  refine isJoint_of (line 1) _ 2 rfl (of fun x y : Ix 1 2 => if blk 2 x = blk 2 y then (3 : ℝ) / 8 else -1 / 8) _ ?_ ?_
  · ext x y
    rw [mul_apply, sum_ix2, hS, hS, of_apply, of_apply, b0, b1]
    rcases x with (x | x) | x
    · exact x.elim
    · rcases y with (y | y) | y
      · exact y.elim
      · rw [Subsingleton.elim x 0, Subsingleton.elim y 0]
        change _ = (1 : Matrix (Ix 1 2) (Ix 1 2) ℝ) j0 j0
        change (if blk 2 j0 = 0 then (3 : ℝ) else 1) * (if 0 = blk 2 j0 then (3 : ℝ) / 8 else -1 / 8) + (if blk 2 j0 = 1 then (3 : ℝ) else 1) * (if 1 = blk 2 j0 then (3 : ℝ) / 8 else -1 / 8) = _
        rw [b0, one_apply_eq]; norm_num
      · rw [Subsingleton.elim x 0, Subsingleton.elim y 0]
        change _ = (1 : Matrix (Ix 1 2) (Ix 1 2) ℝ) j0 j1
        change (if blk 2 j0 = 0 then (3 : ℝ) else 1) * (if 0 = blk 2 j1 then (3 : ℝ) / 8 else -1 / 8) + (if blk 2 j0 = 1 then (3 : ℝ) else 1) * (if 1 = blk 2 j1 then (3 : ℝ) / 8 else -1 / 8) = _
        rw [b0, b1, one_apply_ne (by intro h; cases h)]; norm_num
    · rcases y with (y | y) | y
      · exact y.elim
      · rw [Subsingleton.elim x 0, Subsingleton.elim y 0]
        change _ = (1 : Matrix (Ix 1 2) (Ix 1 2) ℝ) j1 j0
        change (if blk 2 j1 = 0 then (3 : ℝ) else 1) * (if 0 = blk 2 j0 then (3 : ℝ) / 8 else -1 / 8) + (if blk 2 j1 = 1 then (3 : ℝ) else 1) * (if 1 = blk 2 j0 then (3 : ℝ) / 8 else -1 / 8) = _
        rw [b0, b1, one_apply_ne (by intro h; cases h)]; norm_num
      · rw [Subsingleton.elim x 0, Subsingleton.elim y 0]
        change _ = (1 : Matrix (Ix 1 2) (Ix 1 2) ℝ) j1 j1
        change (if blk 2 j1 = 0 then (3 : ℝ) else 1) * (if 0 = blk 2 j1 then (3 : ℝ) / 8 else -1 / 8) + (if blk 2 j1 = 1 then (3 : ℝ) else 1) * (if 1 = blk 2 j1 then (3 : ℝ) / 8 else -1 / 8) = _
        rw [b1, one_apply_eq]; norm_num
  · have s0 : stK ([] ++ [(0, fun _ : Fin 1 => (1 : ℝ))] ++ [(1, fun _ => -1)]) 2 j0 = 1 := rfl
    have s1 : stK ([] ++ [(0, fun _ : Fin 1 => (1 : ℝ))] ++ [(1, fun _ => -1)]) 2 j1 = -1 := rfl
    simp only [dotProduct, mulVec, sum_ix2, s0, s1, of_apply, b0, b1]
    norm_num

/-- The same with a dense covariance, in which pose and landmark are correlated by 1/2. -/
noncomputable def lineDense : Env 1 1 1 := { line 1 with dense := some ⟨1, fun _ => of fun _ _ => 1 / 2, fun _ => of fun _ _ => 1 / 2, fun _ _ => 1⟩ }

/-- C252 (negation): with a dense covariance even a single pairing has the wrong distance, 1/3 instead of 1/4: the correlation between pose
and landmark is left out. -/
theorem C252_dense_violated : ∃ nd, node lineDense [some 0] = some nd ∧ nd.d2 = 1 / 3 ∧
    (lineDense.z 0 - lineDense.zp 0) ⬝ᵥ (cov lineDense 0 0 + lineDense.Q)⁻¹ *ᵥ (lineDense.z 0 - lineDense.zp 0) = 1 / 4 := by
  have hz : lineDense.z 0 - lineDense.zp 0 = fun _ => 1 := by funext a; simp [lineDense, line]
  have hc : cur lineDense 0 0 0 = 3 := by simp [cur, lineDense, line]; norm_num
  have hv : (cov lineDense 0 0 + lineDense.Q) 0 0 = 4 := by simp [cov, est, lineDense, line]; norm_num
  have h0 : node lineDense [] = some ⟨[], ⟨0, 0⟩, 0⟩ := rfl
  have h1 : (cov lineDense 0 0 + lineDense.Q)⁻¹ = of fun _ _ => (4 : ℝ)⁻¹ := by
    have h := inv?_one 4 (by norm_num) hv
    unfold inv? at h
    split at h
    · cases h
    · exact Option.some.inj h
  rw [node, h0, Option.bind_some, extend, if_neg (fun h => h.1 rfl), List.length_nil, hz, inv?_one 3 (by norm_num) hc, h1]
  refine ⟨_, rfl, ?_, ?_⟩
  · show (0 : ℝ) + (fun _ : Fin 1 => (1 : ℝ)) ⬝ᵥ (of fun _ _ => (3 : ℝ)⁻¹ : Matrix (Fin 1) (Fin 1) ℝ) *ᵥ (fun _ => 1) = _
    simp [dotProduct, mulVec]
  · simp [dotProduct, mulVec]

/-- Hypotheses of `C252_recursion_partial` and `C252_undefined`: without measurement noise the recursion computes the right distance. -/
example : ∃ nd, node (line 0) [some 1, some 0, none] = some nd ∧ IsJoint (line 0) (pairs (line 0) [some 1, some 0, none]) nd.d2 ∧
    node (line 0) [some 1, some 2, some 0] = none := by
  obtain ⟨nd, h, -⟩ := line_second 0 (by norm_num) (3 / 2) (by norm_num) (by norm_num)
  refine ⟨nd, h, C252_recursion_partial (line 0) (line_symm 0) (line_unc 0) [some 1, some 0] (fun m _ => cur_eq _ rfl m) (fun m j _ _ hmj => ?_) ?_ nd h,
    C252_undefined (line 0) (line_unc 0) [some 1, some 2] 0 (by decide)⟩
  · ext a b
    rw [line_cross, Subsingleton.elim a b]
    simp [cov, est, line, hmj]
  · decide

/-- Hypotheses of `C252_certain_partial`: a pose without uncertainty. -/
example : ∃ nd, node { line 1 with P := 0 } [some 1, some 2, some 0] = some nd ∧
    IsJoint { line 1 with P := 0 } (pairs { line 1 with P := 0 } [some 1, some 2, some 0]) nd.d2 := by
  refine C252_certain_partial _ ⟨by simp [est, line], by simp [est, line], fun i j => ?_, rfl⟩ rfl rfl _ (fun m _ => ?_) (by decide)
  · simp only [est, line, Option.getD_none, eq_comm (a := j)]
    split <;> simp
  · rw [det_fin_one]
    simp [line]

end JCBBDistProps
end RFS
