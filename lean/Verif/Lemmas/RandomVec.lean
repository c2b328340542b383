import Verif.Model.RandomVec
import Mathlib.Tactic.Common

/-!
Specification of `RandomVec` without caches, and lemmas.
-/

namespace RFS
namespace RandomVecProps
open RandomVec

variable {x s i d f l m r : Type}

/-- Specification: mean and covariance of every object, nothing cached. -/
abbrev Spec (x s : Type) := Nat → x × s

def specStep (S : Spec x s) : Call x s i d f l → Spec x s
  | .construct a mean cov _ _ _ _ => Function.update S a (mean, cov)
  | .copyConstruct a b => Function.update S a (S b)
  | .assign a b => Function.update S a (S b)
  | .setMean a mean => Function.update S a (mean, (S a).2)
  | .setCov a cov => Function.update S a ((S a).1, cov)
  | _ => S

/-- What a call has to return, from the current mean and covariance. -/
def specOut (o : Ops x s i d f l m r) (S : Spec x s) : Call x s i d f l → Out i d l m r
  | .getCovInv a => .inv (o.inv (S a).2)
  | .getCovDet a => .det (o.det (S a).2)
  | .getChol a => .chol (o.chol (S a).2)
  | .mahalanobis a y => .dist (o.md2 (o.inv (S a).2) (S a).1 y)
  | .likelihood a y =>
    .lik (o.lik (o.md2 (o.inv (S a).2) (S a).1 y) (o.fac (o.det (S a).2))) (o.md2 (o.inv (S a).2) (S a).1 y)
  | .logLikelihood a y =>
    .lik (o.logLik (o.md2 (o.inv (S a).2) (S a).1 y) (o.fac (o.det (S a).2))) (o.md2 (o.inv (S a).2) (S a).1 y)
  | _ => .unit

def specAll : Spec x s → List (Call x s i d f l) → Spec x s
  | S, [] => S
  | S, c :: cs => specAll (specStep S c) cs

/-- Means and covariances in memory. -/
def current (M : Nat → Obj x s i d f l) : Spec x s := fun a => ((M a).mean, (M a).cov)

/-- Start of a program: every object has been constructed. -/
def Fresh (M : Nat → Obj x s i d f l) : Prop := ∀ a, (M a).invOk = false ∧ (M a).detOk = false ∧ (M a).cholOk = false

/-- The likelihood evaluations. -/
def isLik : Call x s i d f l → Bool
  | .likelihood _ _ => true
  | .logLikelihood _ _ => true
  | _ => false

/-- The calls that leave a factor that does not belong to the determinant. -/
def spoils : Call x s i d f l → Bool
  | .assign _ _ => true
  | .getCovDet _ => true
  | _ => false

/-- The caches of an object other than the factor agree with its mean and covariance. -/
structure Good (o : Ops x s i d f l m r) (S : x × s) (b : Obj x s i d f l) : Prop where
  mean : b.mean = S.1
  cov : b.cov = S.2
  inv : b.invOk = true → b.invV = o.inv S.2
  det : b.detOk = true → b.detV = o.det S.2
  chol : b.cholOk = true → b.cholV = o.chol S.2

/-- The factor agrees as well. -/
def FacOk (o : Ops x s i d f l m r) (S : x × s) (b : Obj x s i d f l) : Prop := b.detOk = true → b.facV = o.fac (o.det S.2)

abbrev Agree (o : Ops x s i d f l m r) (S : Spec x s) (M : Nat → Obj x s i d f l) : Prop := ∀ a, Good o (S a) (M a)

theorem fresh_agree (o : Ops x s i d f l m r) (M : Nat → Obj x s i d f l) (h : Fresh M) : Agree o (current M) M := by
  intro a
  obtain ⟨h1, h2, h3⟩ := h a
  exact ⟨rfl, rfl, by simp [h1], by simp [h2], by simp [h3]⟩

theorem good_fillInv (o : Ops x s i d f l m r) (S : x × s) (b : Obj x s i d f l) (h : Good o S b) :
    Good o S (fillInv o b) ∧ (fillInv o b).invV = o.inv S.2 ∧ (fillInv o b).facV = b.facV ∧ (fillInv o b).detOk = b.detOk := by
  unfold fillInv
  split
  · rename_i hb; exact ⟨h, h.inv hb, rfl, rfl⟩
  · exact ⟨⟨h.mean, h.cov, fun _ => by simp [h.cov], h.det, h.chol⟩, by simp [h.cov], rfl, rfl⟩

theorem good_fillDet (o : Ops x s i d f l m r) (S : x × s) (b : Obj x s i d f l) (h : Good o S b) :
    Good o S (fillDet o b) ∧ (fillDet o b).detV = o.det S.2 := by
  unfold fillDet
  split
  · rename_i hb; exact ⟨h, h.det hb⟩
  · exact ⟨⟨h.mean, h.cov, h.inv, fun _ => by simp [h.cov], h.chol⟩, by simp [h.cov]⟩

theorem good_fillChol (o : Ops x s i d f l m r) (S : x × s) (b : Obj x s i d f l) (h : Good o S b) :
    Good o S (fillChol o b) ∧ (fillChol o b).cholV = o.chol S.2 ∧ (fillChol o b).facV = b.facV ∧ (fillChol o b).detOk = b.detOk := by
  unfold fillChol
  split
  · rename_i hb; exact ⟨h, h.chol hb, rfl, rfl⟩
  · exact ⟨⟨h.mean, h.cov, h.inv, h.det, fun _ => by simp [h.cov]⟩, by simp [h.cov], rfl, rfl⟩

theorem good_fillFac (o : Ops x s i d f l m r) (S : x × s) (b : Obj x s i d f l) (h : Good o S b) :
    Good o S (fillFac o b) ∧ (FacOk o S b → (fillFac o b).facV = o.fac (o.det S.2)) := by
  unfold fillFac
  split
  · rename_i hb; exact ⟨h, fun h2 => h2 hb⟩
  · exact ⟨⟨h.mean, h.cov, h.inv, fun _ => by simp [h.cov], h.chol⟩, fun _ => by simp [h.cov]⟩

theorem agree_update (o : Ops x s i d f l m r) (S : Spec x s) (M : Nat → Obj x s i d f l) (h : Agree o S M) (a : Nat) (v : x × s)
    (b : Obj x s i d f l) (hb : Good o v b) : Agree o (Function.update S a v) (Function.update M a b) := by
  intro c
  by_cases hc : c = a
  · subst hc; simpa using hb
  · rw [Function.update_of_ne hc, Function.update_of_ne hc]; exact h c

theorem agree_keep (o : Ops x s i d f l m r) (S : Spec x s) (M : Nat → Obj x s i d f l) (h : Agree o S M) (a : Nat)
    (b : Obj x s i d f l) (hb : Good o (S a) b) : Agree o S (Function.update M a b) := by
  have := agree_update o S M h a (S a) b hb
  rwa [Function.update_eq_self] at this

theorem exec_agree (o : Ops x s i d f l m r) (S : Spec x s) (M : Nat → Obj x s i d f l) (h : Agree o S M) (c : Call x s i d f l) :
    Agree o (specStep S c) (exec o M c).1 := by
  cases c with
  | construct a mean cov invV detV cholV facV => exact agree_update o S M h a _ _ ⟨rfl, rfl, by simp, by simp, by simp⟩
  | copyConstruct a b => exact agree_update o S M h a _ _ (h b)
  | assign a b => exact agree_update o S M h a _ _ ⟨(h b).mean, (h b).cov, (h b).inv, (h b).det, (h b).chol⟩
  | setMean a mean => exact agree_update o S M h a _ _ ⟨rfl, (h a).cov, (h a).inv, (h a).det, (h a).chol⟩
  | setCov a cov => exact agree_update o S M h a _ _ ⟨(h a).mean, rfl, by simp, by simp, by simp⟩
  | getCovInv a => exact agree_keep o S M h a _ (good_fillInv o _ _ (h a)).1
  | getCovDet a => exact agree_keep o S M h a _ (good_fillDet o _ _ (h a)).1
  | getChol a => exact agree_keep o S M h a _ (good_fillChol o _ _ (h a)).1
  | mahalanobis a y => exact agree_keep o S M h a _ (good_fillInv o _ _ (h a)).1
  | likelihood a y => exact agree_keep o S M h a _ (good_fillInv o _ _ (good_fillFac o _ _ (h a)).1).1
  | logLikelihood a y => exact agree_keep o S M h a _ (good_fillInv o _ _ (good_fillFac o _ _ (h a)).1).1

theorem execAll_agree (o : Ops x s i d f l m r) (cs : List (Call x s i d f l)) : ∀ (S : Spec x s) (M : Nat → Obj x s i d f l), Agree o S M →
    Agree o (specAll S cs) (execAll o M cs) := by
  induction cs with
  | nil => intro S M h; exact h
  | cons c cs ih => intro S M h; exact ih _ _ (exec_agree o S M h c)

theorem exec_out (o : Ops x s i d f l m r) (S : Spec x s) (M : Nat → Obj x s i d f l) (h : Agree o S M) (c : Call x s i d f l)
    (hc : isLik c = false) : (exec o M c).2 = specOut o S c := by
  cases c with
  | construct a mean cov invV detV cholV facV => rfl
  | copyConstruct a b => rfl
  | assign a b => rfl
  | setMean a mean => rfl
  | setCov a cov => rfl
  | getCovInv a => simp only [exec, specOut, (good_fillInv o _ _ (h a)).2.1]
  | getCovDet a => simp only [exec, specOut, (good_fillDet o _ _ (h a)).2]
  | getChol a => simp only [exec, specOut, (good_fillChol o _ _ (h a)).2.1]
  | mahalanobis a y => simp only [exec, specOut, (good_fillInv o _ _ (h a)).2.1, (good_fillInv o _ _ (h a)).1.mean]
  | likelihood a y => simp [isLik] at hc
  | logLikelihood a y => simp [isLik] at hc

theorem exec_out_lik (o : Ops x s i d f l m r) (S : Spec x s) (M : Nat → Obj x s i d f l) (h : Agree o S M) (c : Call x s i d f l) (a : Nat)
    (hf : FacOk o (S a) (M a)) (hc : ∀ b, (∃ y, c = .likelihood b y) ∨ (∃ y, c = .logLikelihood b y) → b = a) : (exec o M c).2 = specOut o S c := by
  by_cases hl : isLik c = false
  · exact exec_out o S M h c hl
  · cases c with
    | likelihood b y =>
      have hb := hc b (Or.inl ⟨y, rfl⟩)
      subst hb
      have h1 := good_fillFac o _ _ (h b)
      have h2 := good_fillInv o _ _ h1.1
      simp only [exec, specOut, h2.2.1, h2.1.mean, h2.2.2.1, h1.2 hf]
    | logLikelihood b y =>
      have hb := hc b (Or.inr ⟨y, rfl⟩)
      subst hb
      have h1 := good_fillFac o _ _ (h b)
      have h2 := good_fillInv o _ _ h1.1
      simp only [exec, specOut, h2.2.1, h2.1.mean, h2.2.2.1, h1.2 hf]
    | _ => exact absurd rfl hl

theorem exec_out_fac (o : Ops x s i d f l m r) (S : Spec x s) (M : Nat → Obj x s i d f l) (h : Agree o S M) (hf : ∀ a, FacOk o (S a) (M a))
    (c : Call x s i d f l) : (exec o M c).2 = specOut o S c := by
  cases c with
  | likelihood b y => exact exec_out_lik o S M h _ b (hf b) (fun b' hb => by rcases hb with ⟨_, h⟩ | ⟨_, h⟩ <;> cases h; rfl)
  | logLikelihood b y => exact exec_out_lik o S M h _ b (hf b) (fun b' hb => by rcases hb with ⟨_, h⟩ | ⟨_, h⟩ <;> cases h; rfl)
  | _ => exact exec_out o S M h _ rfl

theorem fac_update (o : Ops x s i d f l m r) (S : Spec x s) (M : Nat → Obj x s i d f l) (hf : ∀ a, FacOk o (S a) (M a)) (a : Nat) (v : x × s)
    (b : Obj x s i d f l) (hb : FacOk o v b) : ∀ c, FacOk o (Function.update S a v c) (Function.update M a b c) := by
  intro c
  by_cases hc : c = a
  · subst hc; simpa using hb
  · rw [Function.update_of_ne hc, Function.update_of_ne hc]; exact hf c

theorem fac_keep (o : Ops x s i d f l m r) (S : Spec x s) (M : Nat → Obj x s i d f l) (hf : ∀ a, FacOk o (S a) (M a)) (a : Nat)
    (b : Obj x s i d f l) (hb : FacOk o (S a) b) : ∀ c, FacOk o (S c) (Function.update M a b c) := by
  have := fac_update o S M hf a (S a) b hb
  rwa [Function.update_eq_self] at this

theorem exec_fac (o : Ops x s i d f l m r) (S : Spec x s) (M : Nat → Obj x s i d f l) (h : Agree o S M) (hf : ∀ a, FacOk o (S a) (M a))
    (c : Call x s i d f l) (hc : spoils c = false) : ∀ a, FacOk o (specStep S c a) ((exec o M c).1 a) := by
  have keepInv : ∀ a b, Good o (S a) b → FacOk o (S a) b → FacOk o (S a) (fillInv o b) := by
    intro a b hg hb hd
    have := good_fillInv o _ _ hg
    rw [this.2.2.1]
    exact hb (by rw [← this.2.2.2]; exact hd)
  cases c with
  | construct a mean cov invV detV cholV facV => exact fac_update o S M hf a _ _ (by simp [FacOk])
  | copyConstruct a b => exact fac_update o S M hf a _ _ (hf b)
  | assign a b => simp [spoils] at hc
  | setMean a mean => exact fac_update o S M hf a _ _ (hf a)
  | setCov a cov => exact fac_update o S M hf a _ _ (by simp [FacOk])
  | getCovInv a => exact fac_keep o S M hf a _ (keepInv a _ (h a) (hf a))
  | getCovDet a => simp [spoils] at hc
  | getChol a =>
    refine fac_keep o S M hf a _ (fun hd => ?_)
    have := good_fillChol o _ _ (h a)
    rw [this.2.2.1]
    exact hf a (by rw [← this.2.2.2]; exact hd)
  | mahalanobis a y => exact fac_keep o S M hf a _ (keepInv a _ (h a) (hf a))
  | likelihood a y => exact fac_keep o S M hf a _ (keepInv a _ (good_fillFac o _ _ (h a)).1 (fun _ => (good_fillFac o _ _ (h a)).2 (hf a)))
  | logLikelihood a y => exact fac_keep o S M hf a _ (keepInv a _ (good_fillFac o _ _ (h a)).1 (fun _ => (good_fillFac o _ _ (h a)).2 (hf a)))

theorem execAll_fac (o : Ops x s i d f l m r) (cs : List (Call x s i d f l)) : ∀ (S : Spec x s) (M : Nat → Obj x s i d f l), Agree o S M →
    (∀ a, FacOk o (S a) (M a)) → (∀ c ∈ cs, spoils c = false) → ∀ a, FacOk o (specAll S cs a) (execAll o M cs a) := by
  induction cs with
  | nil => intro S M h hf _; exact hf
  | cons c cs ih =>
    intro S M h hf hc
    exact ih _ _ (exec_agree o S M h c) (exec_fac o S M h hf c (hc c (by simp))) (fun c' h' => hc c' (by simp [h']))

theorem execAll_append (o : Ops x s i d f l m r) (cs cs' : List (Call x s i d f l)) : ∀ M : Nat → Obj x s i d f l,
    execAll o M (cs ++ cs') = execAll o (execAll o M cs) cs' := by
  induction cs with
  | nil => intro M; rfl
  | cons c cs ih => intro M; exact ih _

end RandomVecProps
end RFS
