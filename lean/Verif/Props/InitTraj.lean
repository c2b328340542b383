import Verif.Model.InitTraj
import Verif.Props.Motion
import Verif.Props.TimeStamp

/-!
Properties of the initial trajectory of the batch optimiser (`Verif.Model.InitTraj`).
-/

set_option linter.unusedSectionVars false

namespace RFS
namespace InitTrajProps
open TimeStamp Motion InitTraj TimeStampProps MotionProps

variable {n : Nat} {U : Type}

/-! ### C249 -/

/-- A motion model: the new pose from the old content of its place, the previous pose, an input and the time between the two. -/
abbrev Model (n : Nat) (U : Type) := St n → St n → U → TS → Option (St n)

/-- Specification: pose `b` follows pose `a` by dead reckoning with the input `u` of time `t`: it is what the motion model gives over the time from `a` to the input - a sample drawn around it with covariance `Q`, if there is noise - and its own
covariance is zero. -/
def Follows (step : Model n U) (Q : Matrix (Fin n) (Fin n) ℝ) (draw : (Fin n → ℝ) → Matrix (Fin n) (Fin n) ℝ → (Fin n → ℝ)) (a : St n) (t : TS) (u : U) (b : St n) : Prop :=
  (∃ sk dT s, Normalised dT ∧ instant dT = instant t - instant a.t ∧ step sk a u dT = some s ∧ ((Q = 0 → b.x = s.x) ∧ (Q ≠ 0 → b.x = draw s.x Q))) ∧ b.S = 0

/-- Specification: `T` is a trajectory by dead reckoning with the inputs that begins at the origin at time zero. -/
structure Reckoned (step : Model n U) (Q : Matrix (Fin n) (Fin n) ℝ) (draw : Nat → (Fin n → ℝ) → Matrix (Fin n) (Fin n) ℝ → (Fin n → ℝ)) (inputs : List (TS × U)) (T : List (St n)) : Prop where
  length : T.length = inputs.length + 1
  first : T[0]? = some ⟨0, 0, ⟨0, 0⟩⟩
  next : ∀ k t u a b, inputs[k]? = some (t, u) → T[k]? = some a → T[k + 1]? = some b → Follows step Q (draw k) a t u b

/-- Specification: every pose but the first carries the time of its input. -/
def Timed (inputs : List (TS × U)) (T : List (St n)) : Prop := ∀ k t u b, inputs[k]? = some (t, u) → T[k + 1]? = some b → b.t = t

/-- Times as the programs have them: proper time stamps that are not negative. -/
def Proper (inputs : List (TS × U)) : Prop := ∀ u ∈ inputs, Normalised u.1 ∧ 0 ≤ u.1.sec

/-- The trajectory before: empty, or one that begins at the origin (as an earlier `init` leaves it; `Evaluate` does not write the first pose). -/
def Begun (old : List (St n)) : Prop := ∀ s, old[0]? = some s → s.x = 0 ∧ s.t = ⟨0, 0⟩

/-- **C249**, the full claim for a motion model. -/
def C249_full (step : Model n U) : Prop :=
  ∀ (Q : Matrix (Fin n) (Fin n) ℝ) draw (inputs : List (TS × U)) (old : List (St n)), Proper inputs → Begun old →
    ∃ T, initTrajectory step (some Q) draw inputs old = .ok T ∧ Reckoned step Q draw inputs T ∧ Timed inputs T

/-- Filling, for any invariant of the poses. -/
theorem fill_spec {step : Model n U} {Q : Option (Matrix (Fin n) (Fin n) ℝ)} {draw : Nat → (Fin n → ℝ) → Matrix (Fin n) (Fin n) ℝ → (Fin n → ℝ)} {P R : St n → Prop} {I : TS × U → Prop} {L : Nat → St n → TS × U → St n → Prop}
    (hn : ∀ k sk a u, R sk → P a → I u → ∃ b, next step Q (draw k) sk a u = .ok b ∧ P b ∧ L k a u b) :
    ∀ (inputs : List (TS × U)) (k : Nat) (prev : St n) (rest : List (St n)), rest.length = inputs.length → (∀ s ∈ rest, R s) → (∀ u ∈ inputs, I u) → P prev →
      ∃ l, fill step Q draw k prev rest inputs = .ok l ∧ l.length = inputs.length ∧
        ∀ j u a b, inputs[j]? = some u → (prev :: l)[j]? = some a → l[j]? = some b → L (k + j) a u b := by
  intro inputs
  induction inputs with
  | nil =>
    intro k prev rest hl _ _ _
    obtain rfl := List.length_eq_zero_iff.1 hl
    exact ⟨[], by simp [fill], rfl, by simp⟩
  | cons u us ih =>
    intro k prev rest hl hR hI hP
    match rest, hl with
    | sk :: rest, hl =>
      obtain ⟨b, hb, hPb, hLb⟩ := hn k sk prev u (hR sk (by simp)) hP (hI u (by simp))
      obtain ⟨l, hl1, hl2, hl3⟩ := ih (k + 1) b rest (by simpa using hl) (fun s hs => hR s (by simp [hs])) (fun v hv => hI v (by simp [hv])) hPb
      refine ⟨b :: l, by simp only [fill, hb, hl1], by simp [hl2], fun j v a c hv ha hc => ?_⟩
      match j with
      | 0 =>
        simp only [List.getElem?_cons_zero, Option.some.injEq] at hv ha hc
        subst hv ha hc
        exact hLb
      | j + 1 =>
        simp only [List.getElem?_cons_succ] at hv ha hc
        have := hl3 j v a c hv ha hc
        rwa [show k + 1 + j = k + (j + 1) by omega] at this

/-- The places after `resize`. -/
theorem resize_spec (m : Nat) (old : List (St n)) (hb : Begun old) :
    ∃ s0 rest, resize (m + 1) old = s0 :: rest ∧ rest.length = m ∧ s0.x = 0 ∧ s0.t = ⟨0, 0⟩ ∧ ∀ s ∈ rest, s ∈ old ∨ s = ⟨0, 0, ⟨0, 0⟩⟩ := by
  cases old with
  | nil =>
    refine ⟨origin, List.replicate m origin, by simp [resize, List.replicate_succ], by simp, rfl, rfl, fun s hs => Or.inr ?_⟩
    exact (List.mem_replicate.1 hs).2
  | cons a old =>
    refine ⟨a, resize m old, by simp [resize], ?_, (hb a rfl).1, (hb a rfl).2, fun s hs => ?_⟩
    · simp [resize]; omega
    · rcases List.mem_append.1 hs with h | h
      · exact Or.inl (List.mem_cons_of_mem _ (List.mem_of_mem_take h))
      · exact Or.inr (List.mem_replicate.1 h).2

/-- Initialisation, for any invariant of the poses. -/
theorem init_spec {step : Model n U} {Q : Matrix (Fin n) (Fin n) ℝ} {draw : Nat → (Fin n → ℝ) → Matrix (Fin n) (Fin n) ℝ → (Fin n → ℝ)} {P R : St n → Prop} {L : Nat → St n → TS × U → St n → Prop} {inputs : List (TS × U)} {old : List (St n)}
    (hn : ∀ k sk a u, R sk → P a → Normalised u.1 ∧ 0 ≤ u.1.sec → ∃ b, next step (some Q) (draw k) sk a u = .ok b ∧ P b ∧ L k a u b)
    (hI : Proper inputs) (hB : Begun old) (hR : ∀ s ∈ old, R s) (hR0 : R ⟨0, 0, ⟨0, 0⟩⟩) (hP : P ⟨0, 0, ⟨0, 0⟩⟩) :
    ∃ T, initTrajectory step (some Q) draw inputs old = .ok T ∧ T.length = inputs.length + 1 ∧ T[0]? = some ⟨0, 0, ⟨0, 0⟩⟩ ∧
      ∀ k u a b, inputs[k]? = some u → T[k]? = some a → T[k + 1]? = some b → L k a u b := by
  obtain ⟨s0, rest, h1, h2, h3, h4, h5⟩ := resize_spec inputs.length old hB
  have e : ({ s0 with S := 0 } : St n) = ⟨0, 0, ⟨0, 0⟩⟩ := by
    obtain ⟨x, S, t⟩ := s0
    simp only at h3 h4
    subst h3 h4
    rfl
  obtain ⟨l, hl1, hl2, hl3⟩ := fill_spec hn inputs 0 ⟨0, 0, ⟨0, 0⟩⟩ rest h2 (fun s hs => (h5 s hs).elim (hR s) fun h => h ▸ hR0) hI hP
  refine ⟨⟨0, 0, ⟨0, 0⟩⟩ :: l, by simp only [initTrajectory, h1, e, hl1], by simp [hl2], rfl, fun k u a b hu ha hb => ?_⟩
  have := hl3 k u a b hu ha (by simpa using hb)
  rwa [Nat.zero_add] at this

/-- Specification of a motion model that keeps the time, for every input (C63). -/
def Keeps (step : Model n U) : Prop :=
  ∀ sk skm u dT, Normalised skm.t → Normalised dT → NoOverflow skm.t dT → ∃ s, step sk skm u dT = some s ∧ Normalised s.t ∧ instant s.t = instant skm.t + instant dT

/-- The difference of two times that are not negative. -/
theorem sub_ok {a b : TS} (ha : Normalised a) (hb : Normalised b) (ha0 : 0 ≤ a.sec) (hb0 : 0 ≤ b.sec) :
    ∃ d, sub a b = some d ∧ Normalised d ∧ instant d = instant a - instant b := by
  obtain ⟨a1, a2, a3, a4⟩ := ha
  obtain ⟨b1, b2, b3, b4⟩ := hb
  obtain ⟨d, h1, -, h2, h3⟩ := (binop_exact a b ⟨a1, a2, a3, a4⟩ ⟨b1, b2, b3, b4⟩).2 (by unfold InI32; omega) (by unfold InI32 instant; omega)
  exact ⟨d, h1, h2, h3⟩

theorem next_keeps {step : Model n U} (hk : Keeps step) (Q : Matrix (Fin n) (Fin n) ℝ) (draw : (Fin n → ℝ) → Matrix (Fin n) (Fin n) ℝ → (Fin n → ℝ)) (sk a : St n) (u : TS × U) (ha : Normalised a.t ∧ 0 ≤ a.t.sec)
    (hu : Normalised u.1 ∧ 0 ≤ u.1.sec) :
    ∃ b, next step (some Q) draw sk a u = .ok b ∧ (Normalised b.t ∧ 0 ≤ b.t.sec) ∧ Follows step Q draw a u.1 u.2 b ∧ b.t = u.1 := by
  obtain ⟨d, hd1, hd2, hd3⟩ := sub_ok hu.1 ha.1 hu.2 ha.2
  have ho : NoOverflow a.t d := by
    obtain ⟨⟨a1, a2, a3, a4⟩, a5⟩ := ha
    obtain ⟨⟨u1, u2, u3, u4⟩, u5⟩ := hu
    obtain ⟨d1, d2, d4, d5⟩ := hd2
    unfold NoOverflow InI32
    unfold instant at hd3 ⊢
    omega
  obtain ⟨s, hs1, hs2, hs3⟩ := hk sk a u.2 d ha.1 hd2 ho
  have et : s.t = u.1 := eq_of_instant hs2 hu.1 (by omega)
  by_cases hQ : Q = 0
  · refine ⟨{ s with S := 0 }, by simp [next, hd1, hs1, Motion.sample, hQ], by simpa only [et] using hu, ⟨⟨sk, d, s, hd2, hd3, hs1, fun _ => rfl, fun h => absurd hQ h⟩, rfl⟩, et⟩
  · refine ⟨{ s with x := draw s.x Q, S := 0 }, by simp [next, hd1, hs1, Motion.sample, hQ], by simpa only [et] using hu, ⟨⟨sk, d, s, hd2, hd3, hs1, fun h => absurd h hQ, fun _ => rfl⟩, rfl⟩, et⟩

/-- **C249** for every motion model that keeps the time: initialisation gives one pose more than there are inputs, the first at the origin at time zero, each further one by dead reckoning from the one before, at the time of its input, without
covariance. -/
theorem C249_keeps {step : Model n U} (hk : Keeps step) : C249_full step := by
  intro Q draw inputs old hI hB
  obtain ⟨T, h1, h2, h3, h4⟩ := init_spec (P := fun a => Normalised a.t ∧ 0 ≤ a.t.sec) (R := fun _ => True) (L := fun k a u b => Follows step Q (draw k) a u.1 u.2 b ∧ b.t = u.1)
    (fun k sk a u _ ha hu => next_keeps hk Q (draw k) sk a u ha hu) hI hB (fun _ _ => trivial) trivial ⟨show Normalised ⟨0, 0⟩ by decide, le_refl _⟩
  refine ⟨T, h1, ⟨h2, h3, fun k t u a b hu ha hb => (h4 k (t, u) a b hu ha hb).1⟩, fun k t u b hu hb => ?_⟩
  have hk' : k < T.length := by
    have := (List.getElem?_eq_some_iff.1 hb).1
    omega
  exact (h4 k (t, u) T[k] b hu (List.getElem?_eq_getElem hk') hb).2

/-- **C249** for planar odometry. -/
theorem C249_odometry2d : C249_full (fun sk skm (u : Fin 3 → ℝ) dT => step2d sk skm u dT) := by
  refine C249_keeps fun sk skm u dT h1 h2 h3 => ?_
  obtain ⟨r, e1, -, hN, e2⟩ := (binop_exact skm.t dT h1 h2).1 h3.1 h3.2
  exact ⟨_, by simp only [step2d]; rw [e1]; rfl, hN, e2⟩

/-- **C249** for the Ackerman model. -/
theorem C249_ackerman (c : AckCfg) : C249_full (fun sk skm (u : ℝ × ℝ) dT => stepAck c sk skm u.1 u.2 dT) := by
  refine C249_keeps fun sk skm u dT h1 h2 h3 => ?_
  obtain ⟨r, e1, -, hN, e2⟩ := (binop_exact skm.t dT h1 h2).1 h3.1 h3.2
  exact ⟨_, by simp only [stepAck]; rw [e1]; rfl, hN, e2⟩

/-- What holds for odometry on a line, on a trajectory that was empty before: all but the times, which stay zero. -/
theorem C249_odometry1d_partial (Q : Matrix (Fin 1) (Fin 1) ℝ) (draw : Nat → (Fin 1 → ℝ) → Matrix (Fin 1) (Fin 1) ℝ → (Fin 1 → ℝ)) (inputs : List (TS × (Fin 1 → ℝ))) (hI : Proper inputs) :
    ∃ T, initTrajectory step1d (some Q) draw inputs [] = .ok T ∧ Reckoned step1d Q draw inputs T ∧ ∀ s ∈ T, s.t = ⟨0, 0⟩ := by
  obtain ⟨T, h1, h2, h3, h4⟩ := init_spec (step := step1d) (Q := Q) (draw := draw) (inputs := inputs) (old := []) (P := fun a => a.t = ⟨0, 0⟩) (R := fun s => s.t = ⟨0, 0⟩)
    (L := fun k a u b => Follows step1d Q (draw k) a u.1 u.2 b ∧ b.t = ⟨0, 0⟩)
    (fun k sk a u hs ha hu => by
      obtain ⟨d, hd1, hd2, hd3⟩ := sub_ok hu.1 (b := a.t) (by rw [ha]; decide) hu.2 (by rw [ha])
      by_cases hQ : Q = 0
      · exact ⟨⟨a.x + u.2, 0, sk.t⟩, by simp [next, hd1, step1d, Motion.sample, hQ], hs, ⟨⟨sk, d, _, hd2, hd3, rfl, fun _ => rfl, fun h => absurd hQ h⟩, rfl⟩, hs⟩
      · exact ⟨⟨draw k (a.x + u.2) Q, 0, sk.t⟩, by simp [next, hd1, step1d, Motion.sample, hQ], hs, ⟨⟨sk, d, _, hd2, hd3, rfl, fun h => absurd h hQ, fun _ => rfl⟩, rfl⟩, hs⟩)
    hI (by intro s hs; simp at hs) (by simp) rfl rfl
  refine ⟨T, h1, ⟨h2, h3, fun k t u a b hu ha hb => (h4 k (t, u) a b hu ha hb).1⟩, fun s hs => ?_⟩
  obtain ⟨k, hk⟩ := List.mem_iff_getElem?.1 hs
  match k with
  | 0 => rw [h3, Option.some.injEq] at hk; rw [← hk]
  | k + 1 =>
    have hlt := (List.getElem?_eq_some_iff.1 hk).1
    have hk1 : k < inputs.length := by omega
    exact (h4 k inputs[k] T[k] s (List.getElem?_eq_getElem hk1) (List.getElem?_eq_getElem (by omega)) hk).2

/-- One input at second 1. -/
def oneInput {U : Type} (u : U) : List (TS × U) := [(⟨1, 0⟩, u)]

theorem oneInput_proper {U : Type} (u : U) : Proper (oneInput u) := by
  intro v hv
  obtain rfl := List.mem_singleton.1 hv
  exact ⟨show Normalised ⟨1, 0⟩ by decide, show (0 : Int) ≤ 1 by decide⟩

/-- **C249 is violated** by odometry on a line: after one input at second 1, the second pose carries time zero. -/
theorem C249_odometry1d_violated : ¬ C249_full step1d := by
  intro h
  obtain ⟨T, h1, -, ht⟩ := h 0 (fun _ m _ => m) (oneInput 0) [] (oneInput_proper 0) (by intro s hs; simp at hs)
  obtain ⟨T', h1', hr, h0⟩ := C249_odometry1d_partial 0 (fun _ m _ => m) (oneInput 0) (oneInput_proper 0)
  rw [h1] at h1'
  obtain rfl := Except.ok.inj h1'
  have hl := hr.length
  have hlt : 1 < T.length := by rw [hl]; decide
  have e1 := ht 0 ⟨1, 0⟩ 0 T[1] rfl (List.getElem?_eq_getElem hlt)
  rw [h0 _ (List.getElem_mem hlt)] at e1
  exact absurd e1 (by decide)

/-- Without a noise covariance that was ever set, the first sample reads memory that was never written. -/
theorem C249_unset (step : Model n U) (draw : Nat → (Fin n → ℝ) → Matrix (Fin n) (Fin n) ℝ → (Fin n → ℝ)) (t : TS) (u : U) (us : List (TS × U)) (hk : Keeps step) (ht : Normalised t ∧ 0 ≤ t.sec) :
    initTrajectory step none draw ((t, u) :: us) [] = .error .uninit := by
  obtain ⟨d, hd1, hd2, hd3⟩ := sub_ok ht.1 (b := ⟨0, 0⟩) (by decide) ht.2 (le_refl _)
  have ho : NoOverflow ⟨0, 0⟩ d := by
    obtain ⟨⟨u1, u2, u3, u4⟩, u5⟩ := ht
    obtain ⟨d1, d2, d4, d5⟩ := hd2
    unfold NoOverflow InI32
    unfold instant at hd3 ⊢
    simp only at hd3 ⊢
    omega
  obtain ⟨s, hs1, -, -⟩ := hk origin ⟨0, 0, ⟨0, 0⟩⟩ u d (show Normalised ⟨0, 0⟩ by decide) hd2 ho
  have hs1' : step origin { (origin : St n) with S := 0 } u d = some s := hs1
  have hd1' : sub t (origin : St n).t = some d := hd1
  simp [initTrajectory, resize, List.replicate_succ, fill, next, hd1', hs1', Motion.sample]

/-- Two inputs one second apart, on a trajectory initialised before. -/
example : Proper [((⟨1, 0⟩ : TS), (![1, 0, 0] : Fin 3 → ℝ)), (⟨2, 0⟩, ![0, 1, 0])] ∧ Begun [(⟨0, 0, ⟨0, 0⟩⟩ : St 3), ⟨![1, 0, 0], 0, ⟨1, 0⟩⟩] := by
  refine ⟨fun u hu => ?_, fun s hs => ?_⟩
  · simp only [List.mem_cons, List.not_mem_nil, or_false] at hu
    rcases hu with rfl | rfl <;> exact ⟨by decide, by decide⟩
  · obtain rfl := Option.some.inj hs
    exact ⟨rfl, rfl⟩

/-- With one input forward by 1 and no noise, planar odometry gives the origin and the pose `(1, 0, 0)` at second 1. -/
example : ∃ T, initTrajectory (fun sk skm (u : Fin 3 → ℝ) dT => step2d sk skm u dT) (some 0) (fun _ m _ => m) (oneInput ![1, 0, 0]) [] = .ok T ∧ T.length = 2 ∧ ∀ b, T[1]? = some b → b.t = ⟨1, 0⟩ ∧ b.x 0 = 1 := by
  obtain ⟨T, h1, hr, ht⟩ := C249_odometry2d 0 (fun _ m _ => m) (oneInput ![1, 0, 0]) [] (oneInput_proper _) (by intro s hs; simp at hs)
  refine ⟨T, h1, hr.length, fun b hb => ⟨ht 0 ⟨1, 0⟩ _ b rfl hb, ?_⟩⟩
  obtain ⟨⟨sk, dT, s, -, -, hs, hx, -⟩, -⟩ := hr.next 0 ⟨1, 0⟩ _ _ b rfl hr.first hb
  obtain ⟨r, -, rfl⟩ := Option.map_eq_some_iff.1 hs
  rw [hx rfl]
  simp [rotC, Matrix.mulVec, dotProduct]

end InitTrajProps
end RFS
