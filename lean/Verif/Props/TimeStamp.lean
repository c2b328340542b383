import Verif.Lemmas.TimeStampDouble

/-!
Properties C01-C03 and C65: `rfs::TimeStamp`.

The specification is the integer *instant* `sec * 10^9 + nsec` (nanoseconds) and exact integer arithmetic on it.
-/

namespace RFS
namespace TimeStampProps
open TimeStamp

/-- Specification: the instant a stamp denotes, in nanoseconds. -/
def instant (t : TS) : Int := t.sec * 1000000000 + t.nsec

/-- Specification: the canonical representation with `int32_t` seconds. -/
def Normalised (t : TS) : Prop := 0 ≤ t.nsec ∧ t.nsec < 1000000000 ∧ InI32 t.sec

instance (t : TS) : Decidable (Normalised t) := by unfold Normalised; infer_instance

/-- A history of API calls computing a stamp (every stamp a client can obtain without writing the public fields). -/
inductive Expr where
  | dflt
  | ctor (s ns : Int)
  | set (old : Expr) (s ns : Int)
  | add (a b : Expr)
  | sub (a b : Expr)
  | addAssign (a b : Expr)
  | subAssign (a b : Expr)

/-- Run the history on the model. -/
def run : Expr → Option TS
  | .dflt => some zero
  | .ctor s ns => mk s ns
  | .set old s ns => do let o ← run old; setTime o s ns
  | .add a b => do let x ← run a; let y ← run b; TimeStamp.add x y
  | .sub a b => do let x ← run a; let y ← run b; TimeStamp.sub x y
  | .addAssign a b => do let x ← run a; let y ← run b; TimeStamp.addAssign x y
  | .subAssign a b => do let x ← run a; let y ← run b; TimeStamp.subAssign x y

/-- Specification: the exact instant of a history. -/
def exact : Expr → Int
  | .dflt => 0
  | .ctor s ns => s * 1000000000 + ns
  | .set _ s ns => s * 1000000000 + ns
  | .add a b => exact a + exact b
  | .sub a b => exact a - exact b
  | .addAssign a b => exact a + exact b
  | .subAssign a b => exact a - exact b

/-- Specification: no seconds overflow anywhere in the history: literals are `int32_t`, and at every operation both the
difference/sum of the whole seconds and the whole seconds of the exact result fit in `int32_t`. -/
def Fits : Expr → Prop
  | .dflt => True
  | .ctor s ns => InI32 s ∧ InI32 ns ∧ InI32 ((s * 1000000000 + ns) / 1000000000)
  | .set old s ns => Fits old ∧ InI32 s ∧ InI32 ns ∧ InI32 ((s * 1000000000 + ns) / 1000000000)
  | .add a b | .addAssign a b =>
    Fits a ∧ Fits b ∧ InI32 (exact a / 1000000000 + exact b / 1000000000) ∧ InI32 ((exact a + exact b) / 1000000000)
  | .sub a b | .subAssign a b =>
    Fits a ∧ Fits b ∧ InI32 (exact a / 1000000000 - exact b / 1000000000) ∧ InI32 ((exact a - exact b) / 1000000000)

theorem normalised_eq {t : TS} (h : Normalised t) :
    t.sec = instant t / 1000000000 ∧ t.nsec = instant t % 1000000000 := by
  unfold Normalised at h; unfold instant; omega

/-- **C01**: whatever the history, a stamp that is obtained is normalised. -/
theorem C01_always_normalised (e : Expr) : ∀ t, run e = some t → Normalised t := by
  induction e with
  | dflt => intro t h; cases h; decide
  | ctor s ns => intro t h; exact normalize_normalised _ _ h
  | set old s ns ih =>
    intro t h
    simp only [run, Option.bind_eq_bind, Option.bind_eq_some_iff] at h
    obtain ⟨o, _, h⟩ := h
    exact normalize_normalised _ _ h
  | add a b iha ihb =>
    intro t h
    simp only [run, TimeStamp.add, Option.bind_eq_bind, Option.bind_eq_some_iff] at h
    obtain ⟨_, _, _, _, _, _, _, _, _, _, h⟩ := h
    exact normalize_normalised _ _ h
  | sub a b iha ihb =>
    intro t h
    simp only [run, TimeStamp.sub, Option.bind_eq_bind, Option.bind_eq_some_iff] at h
    obtain ⟨_, _, _, _, _, _, _, _, _, _, h⟩ := h
    exact normalize_normalised _ _ h
  | addAssign a b iha ihb =>
    intro t h
    simp only [run, TimeStamp.addAssign, Option.bind_eq_bind, Option.bind_eq_some_iff] at h
    obtain ⟨_, _, _, _, _, _, _, _, h⟩ := h
    exact normalize_normalised _ _ h
  | subAssign a b iha ihb =>
    intro t h
    simp only [run, TimeStamp.subAssign, Option.bind_eq_bind, Option.bind_eq_some_iff] at h
    obtain ⟨_, _, _, _, _, _, _, _, h⟩ := h
    exact normalize_normalised _ _ h

/-- Binary operations on normalised stamps, the four cases at once. -/
theorem binop_exact (x y : TS) (hx : Normalised x) (hy : Normalised y) :
    (InI32 (x.sec + y.sec) → InI32 ((instant x + instant y) / 1000000000) →
      ∃ t, TimeStamp.add x y = some t ∧ TimeStamp.addAssign x y = some t ∧
        Normalised t ∧ instant t = instant x + instant y) ∧
    (InI32 (x.sec - y.sec) → InI32 ((instant x - instant y) / 1000000000) →
      ∃ t, TimeStamp.sub x y = some t ∧ TimeStamp.subAssign x y = some t ∧
        Normalised t ∧ instant t = instant x - instant y) := by
  obtain ⟨hx0, hx1, hx2⟩ := hx
  obtain ⟨hy0, hy1, hy2⟩ := hy
  constructor
  · intro h1 h2
    have h3 : InI32 (x.nsec + y.nsec) := by unfold InI32; omega
    have e : (x.sec + y.sec) * 1000000000 + (x.nsec + y.nsec) = instant x + instant y := by
      unfold instant; omega
    have hn := normalize_spec ⟨x.sec + y.sec, x.nsec + y.nsec⟩ h1 h3 (by simp only [e]; exact h2)
    simp only [e] at hn
    have hN := normalize_normalised _ _ hn
    refine ⟨_, ?_, ?_, hN, ?_⟩
    rotate_left
    · simp only [TimeStamp.addAssign, chk32_some h1, chk32_some h3, Option.bind_eq_bind, Option.bind_some]
      exact hn
    · unfold instant; simp only; omega
    · simp only [TimeStamp.add, chk32_some h1, chk32_some h3, Option.bind_eq_bind, Option.bind_some, mk, hn]
      exact normalize_idem _ hN.1 hN.2.1 hN.2.2
  · intro h1 h2
    have h3 : InI32 (x.nsec - y.nsec) := by unfold InI32; omega
    have e : (x.sec - y.sec) * 1000000000 + (x.nsec - y.nsec) = instant x - instant y := by
      unfold instant; omega
    have hn := normalize_spec ⟨x.sec - y.sec, x.nsec - y.nsec⟩ h1 h3 (by simp only [e]; exact h2)
    simp only [e] at hn
    have hN := normalize_normalised _ _ hn
    refine ⟨_, ?_, ?_, hN, ?_⟩
    rotate_left
    · simp only [TimeStamp.subAssign, chk32_some h1, chk32_some h3, Option.bind_eq_bind, Option.bind_some]
      exact hn
    · unfold instant; simp only; omega
    · simp only [TimeStamp.sub, chk32_some h1, chk32_some h3, Option.bind_eq_bind, Option.bind_some, mk, hn]
      exact normalize_idem _ hN.1 hN.2.1 hN.2.2

/-- **C01**: a history without seconds overflow succeeds and denotes exactly the instant computed by exact integer
arithmetic. -/
theorem C01_history_exact (e : Expr) (h : Fits e) :
    ∃ t, run e = some t ∧ Normalised t ∧ instant t = exact e := by
  induction e with
  | dflt => exact ⟨zero, rfl, by decide, rfl⟩
  | ctor s ns =>
    obtain ⟨h1, h2, h3⟩ := h
    have hn := normalize_spec ⟨s, ns⟩ h1 h2 h3
    refine ⟨_, hn, normalize_normalised _ _ hn, ?_⟩
    unfold instant; simp only [exact]; omega
  | set old s ns ih =>
    obtain ⟨h0, h1, h2, h3⟩ := h
    obtain ⟨o, ho, -, -⟩ := ih h0
    have hn := normalize_spec ⟨s, ns⟩ h1 h2 h3
    refine ⟨_, by simp only [run, ho, Option.bind_eq_bind, Option.bind_some]; exact hn,
      normalize_normalised _ _ hn, ?_⟩
    unfold instant; simp only [exact]; omega
  | add a b iha ihb =>
    obtain ⟨ha, hb, h1, h2⟩ := h
    obtain ⟨x, hx, nx, ex⟩ := iha ha
    obtain ⟨y, hy, ny, ey⟩ := ihb hb
    obtain ⟨t, ht, -, nt, et⟩ := (binop_exact x y nx ny).1
      (by rw [(normalised_eq nx).1, (normalised_eq ny).1, ex, ey]; exact h1) (by rw [ex, ey]; exact h2)
    exact ⟨t, by simp only [run, hx, hy, Option.bind_eq_bind, Option.bind_some]; exact ht, nt,
      by rw [et, ex, ey]; rfl⟩
  | addAssign a b iha ihb =>
    obtain ⟨ha, hb, h1, h2⟩ := h
    obtain ⟨x, hx, nx, ex⟩ := iha ha
    obtain ⟨y, hy, ny, ey⟩ := ihb hb
    obtain ⟨t, -, ht, nt, et⟩ := (binop_exact x y nx ny).1
      (by rw [(normalised_eq nx).1, (normalised_eq ny).1, ex, ey]; exact h1) (by rw [ex, ey]; exact h2)
    exact ⟨t, by simp only [run, hx, hy, Option.bind_eq_bind, Option.bind_some]; exact ht, nt,
      by rw [et, ex, ey]; rfl⟩
  | sub a b iha ihb =>
    obtain ⟨ha, hb, h1, h2⟩ := h
    obtain ⟨x, hx, nx, ex⟩ := iha ha
    obtain ⟨y, hy, ny, ey⟩ := ihb hb
    obtain ⟨t, ht, -, nt, et⟩ := (binop_exact x y nx ny).2
      (by rw [(normalised_eq nx).1, (normalised_eq ny).1, ex, ey]; exact h1) (by rw [ex, ey]; exact h2)
    exact ⟨t, by simp only [run, hx, hy, Option.bind_eq_bind, Option.bind_some]; exact ht, nt,
      by rw [et, ex, ey]; rfl⟩
  | subAssign a b iha ihb =>
    obtain ⟨ha, hb, h1, h2⟩ := h
    obtain ⟨x, hx, nx, ex⟩ := iha ha
    obtain ⟨y, hy, ny, ey⟩ := ihb hb
    obtain ⟨t, -, ht, nt, et⟩ := (binop_exact x y nx ny).2
      (by rw [(normalised_eq nx).1, (normalised_eq ny).1, ex, ey]; exact h1) (by rw [ex, ey]; exact h2)
    exact ⟨t, by simp only [run, hx, hy, Option.bind_eq_bind, Option.bind_some]; exact ht, nt,
      by rw [et, ex, ey]; rfl⟩

/-- Non-vacuity of `C01_history_exact`: a history with carries and borrows. -/
example : Fits (.sub (.add (.ctor 5 999999999) (.ctor (-3) 999999999)) (.ctor 0 (-2147483648))) := by
  simp only [Fits, exact]; decide

/-- **C01**: the nanosecond field can never be the cause of an overflow: an operation on stamps from any history fails
(undefined behaviour) only if the seconds leave `int32_t`. -/
theorem C01_overflow_only_in_seconds (x y : TS) (hx : Normalised x) (hy : Normalised y) :
    (TimeStamp.add x y = none → ¬ InI32 (x.sec + y.sec)) ∧
    (TimeStamp.sub x y = none → ¬ (InI32 (x.sec - y.sec) ∧ InI32 ((instant x - instant y) / 1000000000))) := by
  refine ⟨?_, ?_⟩
  · intro h h1
    obtain ⟨hx0, hx1, hx2⟩ := hx
    obtain ⟨hy0, hy1, hy2⟩ := hy
    have h3 : InI32 (x.nsec + y.nsec) := by unfold InI32; omega
    have hm : ∃ u, mk (x.sec + y.sec) (x.nsec + y.nsec) = some u := by
      unfold mk normalize
      have := (tdiv_tmod_billion (x.nsec + y.nsec)).2.1 (by omega)
      simp only
      rw [if_neg (by omega)]
      exact ⟨_, rfl⟩
    obtain ⟨u, hu⟩ := hm
    have hN := normalize_normalised _ _ hu
    simp only [TimeStamp.add, chk32_some h1, chk32_some h3, Option.bind_eq_bind, Option.bind_some, hu,
      normalize_idem _ hN.1 hN.2.1 hN.2.2] at h
    cases h
  · rintro h ⟨h1, h2⟩
    obtain ⟨t, ht, -⟩ := (binop_exact x y hx hy).2 h1 h2
    rw [ht] at h; cases h

/-- **C01**: if the exact result does not fit, construction never silently returns a stamp close to the right one: it is
undefined or off by exactly `2^32` seconds. -/
theorem C01_overflow_is_gross (s ns : Int) (hs : InI32 s) (hn : InI32 ns)
    (hf : ¬ InI32 ((s * 1000000000 + ns) / 1000000000)) (u : TS) (h : mk s ns = some u) :
    instant u = s * 1000000000 + ns - 4294967296 * 1000000000 ∨
    instant u = s * 1000000000 + ns + 4294967296 * 1000000000 :=
  normalize_overflow ⟨s, ns⟩ hs hn hf u h

example : ¬ InI32 ((2147483647 * 1000000000 + 1000000000) / 1000000000 : Int) ∧
    mk 2147483647 1000000000 = some ⟨-2147483648, 0⟩ := by decide
example : mk (-2147483648) (-1) = none := by decide

/-- **C02**: every comparison operator agrees with the comparison of the denoted instants. -/
theorem C02_comparisons (a b : TS) (ha : Normalised a) (hb : Normalised b) :
    (TimeStamp.lt a b = true ↔ instant a < instant b) ∧
    (TimeStamp.le a b = true ↔ instant a ≤ instant b) ∧
    (TimeStamp.gt a b = true ↔ instant b < instant a) ∧
    (TimeStamp.ge a b = true ↔ instant b ≤ instant a) ∧
    (TimeStamp.eq a b = true ↔ instant a = instant b) ∧
    (TimeStamp.ne a b = true ↔ instant a ≠ instant b) := by
  unfold Normalised at *
  unfold instant TimeStamp.lt TimeStamp.le TimeStamp.gt TimeStamp.ge TimeStamp.eq TimeStamp.ne
  refine ⟨?_, ?_, ?_, ?_, ?_, ?_⟩ <;> (split <;> try split) <;> simp_all <;> omega

/-- **C02**: the operators form a total order whose equality is `==` and is the equality of the representation. -/
theorem C02_total_order (a b c : TS) (ha : Normalised a) (hb : Normalised b) (hc : Normalised c) :
    (TimeStamp.eq a b = true ↔ a = b) ∧
    (TimeStamp.le a b = true ∨ TimeStamp.le b a = true) ∧
    (TimeStamp.le a b = true → TimeStamp.le b a = true → a = b) ∧
    (TimeStamp.le a b = true → TimeStamp.le b c = true → TimeStamp.le a c = true) ∧
    (TimeStamp.lt a b = true ↔ TimeStamp.le a b = true ∧ a ≠ b) := by
  have e : a = b ↔ instant a = instant b := by
    constructor
    · rintro rfl; rfl
    · intro h
      have h1 := normalised_eq ha; have h2 := normalised_eq hb
      obtain ⟨a1, a2⟩ := a
      obtain ⟨b1, b2⟩ := b
      rw [TS.mk.injEq]
      exact ⟨h1.1.trans ((congrArg (· / 1000000000) h).trans h2.1.symm),
        h1.2.trans ((congrArg (· % 1000000000) h).trans h2.2.symm)⟩
  simp only [ne_eq, e, (C02_comparisons a b ha hb).1, (C02_comparisons a b ha hb).2.1,
    (C02_comparisons b a hb ha).2.1, (C02_comparisons b c hb hc).2.1, (C02_comparisons a c ha hc).2.1,
    (C02_comparisons a b ha hb).2.2.2.2.1]
  exact ⟨trivial, by omega, fun _ _ => by omega, fun _ _ => by omega, by omega⟩

example : Normalised ⟨3, 999999999⟩ ∧ Normalised ⟨4, 0⟩ ∧ TimeStamp.lt ⟨3, 999999999⟩ ⟨4, 0⟩ = true := by decide

theorem eq_of_instant {a b : TS} (ha : Normalised a) (hb : Normalised b) (h : instant a = instant b) : a = b := by
  have h1 := normalised_eq ha; have h2 := normalised_eq hb
  obtain ⟨a1, a2⟩ := a
  obtain ⟨b1, b2⟩ := b
  rw [TS.mk.injEq]
  exact ⟨h1.1.trans ((congrArg (· / 1000000000) h).trans h2.1.symm),
    h1.2.trans ((congrArg (· % 1000000000) h).trans h2.2.symm)⟩

/-- **C03**: `(a + d) - d = a` whenever neither step overflows; more precisely whatever the two operations return is `a`. -/
theorem C03_add_sub_cancel (a d s t : TS) (ha : Normalised a) (hd : Normalised d)
    (hs : InI32 (a.sec + d.sec)) (hf : InI32 ((instant a + instant d) / 1000000000))
    (h1 : TimeStamp.add a d = some s) (h2 : TimeStamp.sub s d = some t) : t = a := by
  obtain ⟨s', e1, -, n1, i1⟩ := (binop_exact a d ha hd).1 hs hf
  rw [e1, Option.some.injEq] at h1; subst h1
  have hsd : InI32 (s'.sec - d.sec) := by
    by_cases hc : InI32 (s'.sec - d.sec)
    · exact hc
    · simp [TimeStamp.sub, chk32_none.mpr hc] at h2
  obtain ⟨t', e2, -, n2, i2⟩ := (binop_exact s' d n1 hd).2 hsd (by
    rw [i1]
    have := (normalised_eq ha).1
    have e : instant a + instant d - instant d = instant a := by omega
    rw [e, ← this]; exact ha.2.2)
  rw [e2] at h2; cases h2
  exact eq_of_instant n2 ha (by omega)

/-- **C03**: addition commutes, overflow behaviour included. -/
theorem C03_add_comm (a b : TS) : TimeStamp.add a b = TimeStamp.add b a := by
  unfold TimeStamp.add; rw [Int.add_comm a.sec, Int.add_comm a.nsec]

/-- **C03**: addition is associative whenever all four partial sums fit in `int32_t` seconds. -/
theorem C03_add_assoc (a b c : TS) (ha : Normalised a) (hb : Normalised b) (hc : Normalised c)
    (h : Fits (.add (.add (.ctor a.sec a.nsec) (.ctor b.sec b.nsec)) (.ctor c.sec c.nsec)))
    (h' : Fits (.add (.ctor a.sec a.nsec) (.add (.ctor b.sec b.nsec) (.ctor c.sec c.nsec)))) :
    (do let s ← TimeStamp.add a b; TimeStamp.add s c) = (do let s ← TimeStamp.add b c; TimeStamp.add a s) ∧
    ((do let s ← TimeStamp.add a b; TimeStamp.add s c) ≠ none) := by
  have hr : ∀ x : TS, Normalised x → run (.ctor x.sec x.nsec) = some x := fun x hx =>
    normalize_idem _ hx.1 hx.2.1 hx.2.2
  obtain ⟨t, e1, n1, i1⟩ := C01_history_exact _ h
  obtain ⟨t', e2, n2, i2⟩ := C01_history_exact _ h'
  have et : t = t' := eq_of_instant n1 n2 (by rw [i1, i2]; simp only [exact]; omega)
  subst et
  have hr' : ∀ x : TS, Normalised x → mk x.sec x.nsec = some x := hr
  simp only [run, hr' a ha, hr' b hb, hr' c hc, Option.bind_eq_bind, Option.bind_some] at e1 e2 ⊢
  have hA : ((TimeStamp.add a b).bind fun s => TimeStamp.add s c) = some t := e1
  have hB : ((TimeStamp.add b c).bind fun s => TimeStamp.add a s) = some t := e2
  rw [hA, hB]; exact ⟨rfl, by simp⟩

/-- **C03**: the compound assignments equal the binary operators on all stamps, overflow included. -/
theorem C03_assign_ops (a b : TS) :
    TimeStamp.addAssign a b = TimeStamp.add a b ∧ TimeStamp.subAssign a b = TimeStamp.sub a b := by
  have key : ∀ s n : Int, (do let l ← mk s n; normalize l) = normalize ⟨s, n⟩ := by
    intro s n
    unfold mk
    cases hn : normalize ⟨s, n⟩ with
    | none => rfl
    | some u =>
      have hN := normalize_normalised _ _ hn
      simp only [Option.bind_eq_bind, Option.bind_some]
      exact normalize_idem _ hN.1 hN.2.1 hN.2.2
  constructor
  · unfold TimeStamp.addAssign TimeStamp.add
    simp only [key]
  · unfold TimeStamp.subAssign TimeStamp.sub
    simp only [key]

example : Fits (.add (.add (.ctor 1 999999999) (.ctor 2 1)) (.ctor (-3) 5)) ∧
    Fits (.add (.ctor 1 999999999) (.add (.ctor 2 1) (.ctor (-3) 5))) := by
  simp only [Fits, exact]; decide

/-- **C65**: `setTime(double)` (exact arithmetic) truncates the time to whole nanoseconds toward zero, for every time
whose whole seconds fit. -/
theorem C65_setTime_double (t : Rat) (h : InI32 (truncQ t)) (hf : InI32 (truncQ (t * 1000000000) / 1000000000)) :
    ∃ u, setTimeD t = some u ∧ Normalised u ∧ instant u = truncQ (t * 1000000000) := by
  obtain ⟨h1, h2, h3, -⟩ := truncQ_split t
  have h4 : InI32 (truncQ ((t - truncQ t) * 1000000000)) := by unfold InI32; omega
  have hn := normalize_spec ⟨truncQ t, truncQ ((t - truncQ t) * 1000000000)⟩ h h4
    (by simp only [h1]; exact hf)
  simp only [h1] at hn
  refine ⟨_, ?_, normalize_normalised _ _ hn, ?_⟩
  · simp only [setTimeD, chk32_some h, chk32_some h4, Option.bind_eq_bind, Option.bind_some]
    exact hn
  · unfold instant; simp only; omega

/-- **C65**: round trip through the double representation (exact arithmetic), for every stamp a client can obtain. -/
theorem C65_double_roundtrip (u : TS) (hu : Normalised u) : setTimeD (getTimeAsDouble u) = some u := by
  have hsplit := truncQ_split (getTimeAsDouble u)
  have e : getTimeAsDouble u * 1000000000 = ((instant u : Int) : Rat) := by
    unfold getTimeAsDouble instant; push_cast; ring
  rw [e, truncQ_intCast] at hsplit
  have hb : InI32 (truncQ (getTimeAsDouble u)) := by
    obtain ⟨h1, h2, h3⟩ := hu
    unfold InI32 at *
    unfold instant at hsplit
    omega
  obtain ⟨v, hv, nv, iv⟩ := C65_setTime_double (getTimeAsDouble u) hb (by
    rw [e, truncQ_intCast, ← (normalised_eq hu).1]; exact hu.2.2)
  rw [hv, eq_of_instant nv hu (by rw [iv, e, truncQ_intCast])]

example : setTimeD (-3/2 : Rat) = some ⟨-2, 500000000⟩ := by decide +kernel
example : InI32 (truncQ (-3/2 : Rat)) ∧ InI32 (truncQ ((-3/2 : Rat) * 1000000000) / 1000000000) := by decide +kernel

end TimeStampProps
end RFS
