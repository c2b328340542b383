import Verif.Model.Amplitude
import Mathlib.Data.Rat.Defs

/-!
Property C73: copies of amplitude measurements evaluate like the original.
-/

namespace RFS
namespace AmplitudeProps
open Amplitude

variable {B K R : Type}

/-- Members a properly constructed measurement has. -/
def Proper (ten two : K) (o : Meas B K) : Prop := o.mean = some ten ∧ o.cov = some two ∧ o.amp.isSome

/-- C73 (partial): in programs that construct, assign and set measurements, every measurement stays proper, so that an assigned measurement
evaluates like the one it was assigned from. Missing: copy construction (`C73_violated`). -/
theorem C73_proper_partial (one ten two : K) (cs : List (Call B K)) (hcs : ∀ c ∈ cs, ∀ p q, c ≠ .copy p q) : ∀ (M : Nat → Meas B K),
    (∀ p, Proper ten two (M p)) → ∀ p, Proper ten two (cs.foldl (exec one ten two) M p) := by
  induction cs with
  | nil => intro M h; exact h
  | cons c cs ih =>
    intro M h
    refine ih (fun c' hc' => hcs c' (List.mem_cons_of_mem _ hc')) _ ?_
    intro p
    have hc := hcs c List.mem_cons_self
    cases c with
    | construct q b =>
      by_cases hp : p = q
      · subst hp; simp [exec, construct, Proper]
      · simpa [exec, Function.update_of_ne hp] using h p
    | copy q r => exact absurd rfl (hc q r)
    | assign q r =>
      by_cases hp : p = q
      · subst hp; simpa [exec, assign, Proper] using ⟨(h p).1, (h p).2.1, (h r).2.2⟩
      · simpa [exec, Function.update_of_ne hp] using h p
    | setAmplitude q a =>
      by_cases hp : p = q
      · subst hp; simpa [exec, setAmplitude, Proper] using ⟨(h p).1, (h p).2.1⟩
      · simpa [exec, Function.update_of_ne hp] using h p

theorem C73_assign_partial (ten two : K) (lik : B → B → K → K → K → R) (o o' x : Meas B K) (ho : Proper ten two o) (ho' : Proper ten two o') :
    eval lik (assign o' o) x = eval lik o x ∧ eval lik x (assign o' o) = eval lik x o := by
  unfold eval assign
  simp only
  rw [ho.1, ho.2.1, ho'.1, ho'.2.1]
  exact ⟨rfl, trivial⟩

/-- A proper measurement evaluates to the likelihood of the other one: the two measurements in this order, the amplitude of the other one, and
its own mean and variance of the amplitude. -/
theorem C73_value_partial (ten two a : K) (lik : B → B → K → K → K → R) (o x : Meas B K) (ho : Proper ten two o) (hx : x.amp = some a) :
    eval lik o x = some (lik o.base x.base a ten two) := by
  simp [eval, ho.1, ho.2.1, hx]

/-- Evaluating a copy reads members that were never initialised, whatever measurement was copied. -/
theorem C73_violated (lik : B → B → K → K → K → R) (o x : Meas B K) : eval lik (copy o) x = none := by
  unfold eval copy
  cases x.amp <;> rfl

/-- A copy serves as the evaluated measurement all the same. -/
theorem C73_copy_argument (lik : B → B → K → K → K → R) (o x : Meas B K) : eval lik o (copy x) = eval lik o x := rfl

example : ∃ o : Meas Nat Rat, Proper 10 2 o ∧ eval (fun _ _ a m c => a + m + c) o o = some 13 ∧ eval (fun _ _ a m c => a + m + c) (copy o) o = none :=
  ⟨construct 1 10 2 0, by simp [Proper, construct], by decide +kernel, by decide +kernel⟩

end AmplitudeProps
end RFS
