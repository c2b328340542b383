import Verif.Model.Config
import Mathlib.Data.Nat.Digits.Defs
import Mathlib.Data.List.TakeWhile
import Mathlib.Data.List.Induction
import Mathlib.Algebra.Order.Ring.Abs
import Mathlib.Algebra.Order.Ring.Int
import Mathlib.Tactic.IntervalCases
import Mathlib.Tactic.Ring
import Mathlib.Tactic.Linarith

/-!
# Lemmas on the reader of configurations, with the independent description of numbers
-/

set_option linter.unusedSectionVars false

namespace RFS.Config

/-! ## What a number is -/

/-- A run of decimal digits. -/
def Digits (ds : Text) : Prop := ∀ c ∈ ds, c ∈ ['0', '1', '2', '3', '4', '5', '6', '7', '8', '9']

/-- Its value. -/
def value (ds : Text) : Nat := Nat.ofDigits 10 (ds.reverse.map fun c => c.toNat - 48)

/-- White space. -/
def Blank (s : Text) : Prop := ∀ c ∈ s, c ∈ [' ', '\t', '\n', '\r', '\x0b', '\x0c']

/-- A sign and its value. -/
def Sign (s : Text) (v : Int) : Prop := (s = [] ∧ v = 1) ∨ (s = ['+'] ∧ v = 1) ∨ (s = ['-'] ∧ v = -1)

/-- A whole number. -/
def PlainInt (s : Text) (v : Int) : Prop :=
  ∃ sg σ ds, Sign sg σ ∧ Digits ds ∧ ds ≠ [] ∧ s = sg ++ ds ∧ v = σ * value ds

/-- A decimal number: digits with or without a decimal point, with or without an exponent. -/
def PlainDec (s : Text) (q : ℚ) : Prop :=
  ∃ sg σ ip point fp ex e, Sign sg σ ∧ Digits ip ∧ Digits fp ∧ ¬ (ip = [] ∧ fp = []) ∧
    (point = ['.'] ∨ (point = [] ∧ fp = [])) ∧
    ((ex = [] ∧ e = 0) ∨ (∃ c n, (c = 'e' ∨ c = 'E') ∧ PlainInt n e ∧ ex = c :: n)) ∧
    s = sg ++ ip ++ point ++ fp ++ ex ∧
    q = (σ : ℚ) * (value (ip ++ fp) : ℚ) * (10 : ℚ) ^ (e - (fp.length : Int))

/-- Something with white space around it. -/
def Padded {α : Type} (P : Text → α → Prop) (s : Text) (v : α) : Prop := ∃ a m b, Blank a ∧ Blank b ∧ s = a ++ m ++ b ∧ P m v

/-- The texts of the values of each type. -/
def IsA : Ty → Text → Val → Prop
  | .int, s, v => ∃ n, Padded PlainInt s n ∧ -2147483648 ≤ n ∧ n ≤ 2147483647 ∧ v = .num n
  | .flag, s, v => ∃ n, Padded PlainInt s n ∧ -2147483648 ≤ n ∧ n ≤ 2147483647 ∧ v = .num n
  | .uint, s, v => ∃ n, Padded PlainInt s n ∧ -4294967295 ≤ n ∧ n ≤ 4294967295 ∧ v = .num ((n % 4294967296 : Int) : ℚ)
  | .dbl, s, v => ∃ q, Padded PlainDec s q ∧ v = .num q
  | .bool, s, v => (v = .num 0 ∧ (Padded PlainInt s 0 ∨ Padded (fun m (_ : Unit) => m = "false".toList) s ())) ∨
      (v = .num 1 ∧ (Padded PlainInt s 1 ∨ Padded (fun m (_ : Unit) => m = "true".toList) s ()))
  | .str, s, v => v = .text s

theorem isDig_iff (c : Char) : isDig c = true ↔ c ∈ ['0', '1', '2', '3', '4', '5', '6', '7', '8', '9'] := by
  constructor
  · intro h
    have h1 : 48 ≤ c.toNat ∧ c.toNat ≤ 57 := by
      simp only [isDig, Bool.and_eq_true, decide_eq_true_eq, Char.le_def, UInt32.le_iff_toNat_le] at h
      exact h
    obtain ⟨a, b⟩ := h1
    have h2 := Char.ofNat_toNat c
    generalize c.toNat = n at *
    rw [← h2]
    interval_cases n <;> decide
  · intro h
    simp only [List.mem_cons, List.not_mem_nil, or_false] at h
    rcases h with h | h | h | h | h | h | h | h | h | h <;> subst h <;> decide

theorem isWs_iff (c : Char) : isWs c = true ↔ c ∈ [' ', '\t', '\n', '\r', '\x0b', '\x0c'] := by
  simp [isWs, or_assoc]

theorem digits_all {ds : Text} : Digits ds ↔ ∀ c ∈ ds, isDig c = true :=
  forall₂_congr fun c _ => (isDig_iff c).symm

theorem blank_all {s : Text} : Blank s ↔ ∀ c ∈ s, isWs c = true :=
  forall₂_congr fun c _ => (isWs_iff c).symm

theorem natOf_eq (ds : Text) : natOf ds = value ds := by
  induction ds using List.reverseRecOn with
  | nil => rfl
  | append_singleton l c ih =>
    have : natOf (l ++ [c]) = 10 * natOf l + (c.toNat - 48) := by simp [natOf, List.foldl_append]
    rw [this, ih]
    simp only [value, List.reverse_append, List.reverse_cons, List.reverse_nil, List.nil_append, List.map_cons, List.singleton_append, Nat.ofDigits_cons]
    ring

theorem not_dig_ws {c : Char} (h : isWs c = true) : isDig c = false := by
  rw [isWs_iff] at h
  simp only [List.mem_cons, List.not_mem_nil, or_false] at h
  rcases h with h | h | h | h | h | h <;> subst h <;> decide

theorem not_ws_dig {c : Char} (h : isDig c = true) : isWs c = false := by
  cases hw : isWs c
  · rfl
  · rw [not_dig_ws hw] at h; cases h

/-- What follows a run of digits does not begin with a digit. -/
def NoDig (s : Text) : Prop := ∀ c ∈ s.head?, isDig c = false

theorem takeWhile_split {p : Char → Bool} {a b : Text} (ha : ∀ c ∈ a, p c = true) (hb : ∀ c ∈ b.head?, p c = false) :
    (a ++ b).takeWhile p = a ∧ (a ++ b).dropWhile p = b := by
  induction a with
  | nil =>
    cases b with
    | nil => simp
    | cons c b => have := hb c (by simp); simp [this]
  | cons c a ih =>
    have h1 := ha c (by simp)
    obtain ⟨h2, h3⟩ := ih fun c hc => ha c (by simp [hc])
    simp [h1, h2, h3]

theorem dropWhile_all {p : Char → Bool} {a : Text} : a.dropWhile p = [] ↔ ∀ c ∈ a, p c = true := by
  rw [List.dropWhile_eq_nil_iff]

theorem head_dropWhile {p : Char → Bool} (a : Text) : ∀ c ∈ (a.dropWhile p).head?, p c = false := by
  intro c hc
  have := List.head?_dropWhile_not p a
  rw [Option.mem_def.1 hc] at this
  simpa using this

/-- `takeSign` inverts the sign. -/
theorem takeSign_of {sg : Text} {σ : Int} {r : Text} (h : Sign sg σ) (hr : ∀ c ∈ r.head?, c ≠ '+' ∧ c ≠ '-') :
    ∃ b, takeSign (sg ++ r) = (b, r) ∧ ∀ n, signed b n = σ * n := by
  rcases h with ⟨rfl, rfl⟩ | ⟨rfl, rfl⟩ | ⟨rfl, rfl⟩
  · refine ⟨false, ?_, by simp [signed]⟩
    cases r with
    | nil => rfl
    | cons c r =>
      have := hr c (by simp)
      simp only [List.nil_append]
      unfold takeSign
      split
      · next h => exact absurd (List.cons.inj h).1 this.2
      · next h => exact absurd (List.cons.inj h).1 this.1
      · rfl
  · exact ⟨false, rfl, by simp [signed]⟩
  · exact ⟨true, rfl, by simp [signed]⟩

theorem takeSign_spec (s : Text) : ∃ sg σ, Sign sg σ ∧ s = sg ++ (takeSign s).2 ∧ ∀ n, signed (takeSign s).1 n = σ * n := by
  unfold takeSign
  split
  · exact ⟨['-'], -1, .inr (.inr ⟨rfl, rfl⟩), rfl, by simp [signed]⟩
  · exact ⟨['+'], 1, .inr (.inl ⟨rfl, rfl⟩), rfl, by simp [signed]⟩
  · exact ⟨[], 1, .inl ⟨rfl, rfl⟩, rfl, by simp [signed]⟩

theorem digit_sign {ds r : Text} (h : Digits ds) (h0 : ds ≠ []) : ∀ c ∈ (ds ++ r).head?, c ≠ '+' ∧ c ≠ '-' := by
  cases ds with
  | nil => exact absurd rfl h0
  | cons d ds =>
    intro c hc
    simp only [List.cons_append, List.head?_cons, Option.mem_def, Option.some.injEq] at hc
    subst hc
    have := digits_all.1 h d (by simp)
    constructor <;> (rintro rfl; revert this; decide)

/-- A sign and digits, whatever follows. -/
theorem int_take {s m r : Text} {v : Int} (h : PlainInt m v) (hr : NoDig r) (hs : s = m ++ r) :
    ((takeSign s).2.takeWhile isDig ≠ [] ∧ (takeSign s).2.dropWhile isDig = r) ∧
    signed (takeSign s).1 (natOf ((takeSign s).2.takeWhile isDig)) = v ∧
    (natOf ((takeSign s).2.takeWhile isDig) : Int) = |v| := by
  obtain ⟨sg, σ, ds, h1, h2, h3, rfl, rfl⟩ := h
  obtain ⟨b, hb, hb'⟩ := takeSign_of (r := ds ++ r) h1 (digit_sign h2 h3)
  rw [hs, List.append_assoc, hb]
  obtain ⟨h4, h5⟩ := takeWhile_split (p := isDig) (digits_all.1 h2) hr
  simp only [h4, h5, hb', natOf_eq, ne_eq, h3, not_false_iff, true_and, abs_mul]
  rcases h1 with ⟨-, rfl⟩ | ⟨-, rfl⟩ | ⟨-, rfl⟩ <;> simp

theorem int_spec (s : Text) (h : (takeSign s).2.takeWhile isDig ≠ []) :
    ∃ m, PlainInt m (signed (takeSign s).1 (natOf ((takeSign s).2.takeWhile isDig))) ∧ s = m ++ (takeSign s).2.dropWhile isDig := by
  obtain ⟨sg, σ, h1, h2, h3⟩ := takeSign_spec s
  refine ⟨sg ++ (takeSign s).2.takeWhile isDig, ⟨sg, σ, _, h1, ?_, h, rfl, ?_⟩, ?_⟩
  · exact digits_all.2 fun c hc => List.mem_takeWhile_imp hc
  · rw [h3, natOf_eq]
  · conv_lhs => rw [h2]
    rw [List.append_assoc, List.takeWhile_append_dropWhile]

theorem sign_noWs {sg r : Text} {σ : Int} (h : Sign sg σ) (hr : ∀ c ∈ r.head?, isWs c = false) : ∀ c ∈ (sg ++ r).head?, isWs c = false := by
  rcases h with ⟨rfl, -⟩ | ⟨rfl, -⟩ | ⟨rfl, -⟩
  · exact hr
  · intro c hc
    simp at hc; subst hc; decide
  · intro c hc
    simp at hc; subst hc; decide

theorem digits_noWs {ds r : Text} (h : Digits ds) (h0 : ds ≠ []) : ∀ c ∈ (ds ++ r).head?, isWs c = false := by
  cases ds with
  | nil => exact absurd rfl h0
  | cons d ds =>
    intro c hc
    simp only [List.cons_append, List.head?_cons, Option.mem_def, Option.some.injEq] at hc
    subst hc
    exact not_ws_dig (digits_all.1 h d (by simp))

theorem plainInt_noWs {m : Text} {v : Int} (h : PlainInt m v) (r : Text) : ∀ c ∈ (m ++ r).head?, isWs c = false := by
  obtain ⟨sg, σ, ds, h1, h2, h3, rfl, -⟩ := h
  rw [List.append_assoc]
  exact sign_noWs h1 (digits_noWs h2 h3)

theorem blank_noDig {b : Text} (h : Blank b) : NoDig b := by
  cases b with
  | nil => intro c hc; cases hc
  | cons d b =>
    intro c hc
    simp only [List.head?_cons, Option.mem_def, Option.some.injEq] at hc
    subst hc
    exact not_dig_ws (blank_all.1 h d (by simp))

/-- The common shape of the readers of whole numbers. -/
theorem int_iff (s : Text) (v : Int) :
    ((takeSign (s.dropWhile isWs)).2.takeWhile isDig ≠ [] ∧
      ((takeSign (s.dropWhile isWs)).2.dropWhile isDig).dropWhile isWs = [] ∧
      signed (takeSign (s.dropWhile isWs)).1 (natOf ((takeSign (s.dropWhile isWs)).2.takeWhile isDig)) = v) ↔ Padded PlainInt s v := by
  constructor
  · rintro ⟨h1, h2, rfl⟩
    obtain ⟨m, h3, h4⟩ := int_spec (s.dropWhile isWs) h1
    refine ⟨s.takeWhile isWs, m, _, blank_all.2 fun c hc => List.mem_takeWhile_imp hc, blank_all.2 (dropWhile_all.1 h2), ?_, h3⟩
    conv_lhs => rw [← List.takeWhile_append_dropWhile (p := isWs) (l := s), h4]
    rw [List.append_assoc]
  · rintro ⟨a, m, b, ha, hb, rfl, hm⟩
    have h1 : (a ++ m ++ b).dropWhile isWs = m ++ b := by
      rw [List.append_assoc]
      exact (takeWhile_split (blank_all.1 ha) (plainInt_noWs hm b)).2
    rw [h1]
    obtain ⟨⟨h2, h3⟩, h4, -⟩ := int_take hm (blank_noDig hb) rfl
    exact ⟨h2, by rw [h3]; exact dropWhile_all.2 (blank_all.1 hb), h4⟩

theorem parseInt_iff (s : Text) (v : Int) :
    parseInt s = some v ↔ Padded PlainInt s v ∧ -2147483648 ≤ v ∧ v ≤ 2147483647 := by
  rw [← int_iff]
  unfold parseInt
  simp only
  split_ifs with h1 h2 h3
  · simp [h1]
  · simp only [reduceCtorEq, false_iff]
    rintro ⟨⟨-, -, rfl⟩, h, h'⟩
    omega
  · simp only [Option.some.injEq, ne_eq, h1, not_false_iff, h3, true_and]
    constructor
    · rintro rfl; exact ⟨rfl, by omega, by omega⟩
    · exact fun h => h.1
  · simp [h3]

theorem abs_signed (b : Bool) (n : Nat) : |signed b n| = n := by cases b <;> simp [signed]

theorem parseUint_iff (s : Text) (v : Int) :
    parseUint s = some v ↔ ∃ n, Padded PlainInt s n ∧ -4294967295 ≤ n ∧ n ≤ 4294967295 ∧ v = n % 4294967296 := by
  simp only [← int_iff]
  unfold parseUint
  simp only
  have ha := abs_signed (takeSign (s.dropWhile isWs)).1 (natOf ((takeSign (s.dropWhile isWs)).2.takeWhile isDig))
  split_ifs with h1 h2 h3
  · simp [h1]
  · simp only [reduceCtorEq, false_iff]
    rintro ⟨n, ⟨-, -, rfl⟩, h, h', -⟩
    have : |signed (takeSign (s.dropWhile isWs)).1 (natOf ((takeSign (s.dropWhile isWs)).2.takeWhile isDig))| ≤ 4294967295 := abs_le.2 ⟨h, h'⟩
    omega
  · simp only [Option.some.injEq, ne_eq, h1, not_false_iff, h3, true_and]
    constructor
    · rintro rfl
      have := abs_le.1 (ha.le.trans (by exact_mod_cast Nat.le_of_not_lt h2) : |signed (takeSign (s.dropWhile isWs)).1 (natOf ((takeSign (s.dropWhile isWs)).2.takeWhile isDig))| ≤ (4294967295 : Int))
      exact ⟨_, rfl, this.1, this.2, rfl⟩
    · rintro ⟨n, rfl, -, -, rfl⟩; rfl
  · simp [h3]

/-! ## Decimal numbers -/

theorem takeExp_spec {s r : Text} {e : Int} (h : takeExp s = some (e, r)) :
    ∃ ex, ((ex = [] ∧ e = 0) ∨ ∃ c n, (c = 'e' ∨ c = 'E') ∧ PlainInt n e ∧ ex = c :: n) ∧ s = ex ++ r := by
  unfold takeExp at h
  split at h
  · next c t =>
    split_ifs at h with h1
    · simp only at h
      split_ifs at h with h2
      simp only [Option.some.injEq, Prod.mk.injEq] at h
      obtain ⟨rfl, rfl⟩ := h
      obtain ⟨m, h3, h4⟩ := int_spec t h2
      refine ⟨c :: m, .inr ⟨c, m, h1, h3, rfl⟩, ?_⟩
      rw [List.cons_append, ← h4]
    · simp only [Option.some.injEq, Prod.mk.injEq] at h
      obtain ⟨rfl, rfl⟩ := h
      exact ⟨[], .inl ⟨rfl, rfl⟩, rfl⟩
  · simp only [Option.some.injEq, Prod.mk.injEq] at h
    obtain ⟨rfl, rfl⟩ := h
    exact ⟨[], .inl ⟨rfl, rfl⟩, rfl⟩

theorem blank_head {b : Text} (h : Blank b) : ∀ c ∈ b.head?, isWs c = true := by
  cases b with
  | nil => intro c hc; cases hc
  | cons d b =>
    intro c hc
    simp only [List.head?_cons, Option.mem_def, Option.some.injEq] at hc
    subst hc
    exact blank_all.1 h d (by simp)

theorem takeExp_of {ex b : Text} {e : Int} (h : (ex = [] ∧ e = 0) ∨ ∃ c n, (c = 'e' ∨ c = 'E') ∧ PlainInt n e ∧ ex = c :: n) (hb : Blank b) :
    takeExp (ex ++ b) = some (e, b) := by
  rcases h with ⟨rfl, rfl⟩ | ⟨c, n, hc, hn, rfl⟩
  · cases b with
    | nil => rfl
    | cons d b =>
      have h1 := blank_head hb d (by simp)
      have h2 : ¬ (d = 'e' ∨ d = 'E') := by
        rintro (rfl | rfl) <;> revert h1 <;> decide
      simp [takeExp, h2]
  · obtain ⟨⟨h2, h3⟩, h4, -⟩ := int_take hn (blank_noDig hb) rfl
    simp only [List.cons_append, takeExp, hc, if_true, h2, if_false, h3, h4]

theorem takeFrac_spec (s : Text) :
    ∃ point, (point = ['.'] ∨ (point = [] ∧ (takeFrac s).1 = [])) ∧ s = point ++ (takeFrac s).1 ++ (takeFrac s).2 ∧ Digits (takeFrac s).1 := by
  unfold takeFrac
  split
  · next r =>
    refine ⟨['.'], .inl rfl, ?_, digits_all.2 fun c hc => List.mem_takeWhile_imp hc⟩
    simp
  · exact ⟨[], .inr ⟨rfl, rfl⟩, rfl, fun c hc => by cases hc⟩

theorem takeFrac_of {point fp r : Text} (h : point = ['.'] ∨ (point = [] ∧ fp = [])) (hf : Digits fp) (hr : NoDig r) (hp : ∀ c ∈ r.head?, c ≠ '.') :
    takeFrac (point ++ fp ++ r) = (fp, r) := by
  rcases h with rfl | ⟨rfl, rfl⟩
  · obtain ⟨h1, h2⟩ := takeWhile_split (digits_all.1 hf) hr
    simp [takeFrac, h1, h2]
  · simp only [List.nil_append]
    unfold takeFrac
    split
    · next h => exact absurd rfl (hp '.' (by simp))
    · rfl

theorem extractDbl_spec {s r : Text} {q : ℚ} (h : extractDbl s = some (q, r)) : ∃ m, PlainDec m q ∧ s = m ++ r := by
  unfold extractDbl at h
  simp only at h
  split_ifs at h with h1
  obtain ⟨sg, σ, hs, hs1, hs2⟩ := takeSign_spec s
  obtain ⟨point, hp, hp1, hp2⟩ := takeFrac_spec ((takeSign s).2.dropWhile isDig)
  split at h
  · cases h
  · next e r' he =>
    simp only [Option.some.injEq, Prod.mk.injEq] at h
    obtain ⟨rfl, rfl⟩ := h
    obtain ⟨ex, hx, hx1⟩ := takeExp_spec he
    refine ⟨sg ++ (takeSign s).2.takeWhile isDig ++ point ++ (takeFrac ((takeSign s).2.dropWhile isDig)).1 ++ ex,
      ⟨sg, σ, _, point, _, ex, e, hs, digits_all.2 fun c hc => List.mem_takeWhile_imp hc, hp2, h1, hp, hx, rfl, ?_⟩, ?_⟩
    · rw [hs2, natOf_eq]; push_cast; rfl
    · have e1 : s = sg ++ ((takeSign s).2.takeWhile isDig ++ (point ++ (takeFrac ((takeSign s).2.dropWhile isDig)).1 ++ (ex ++ r'))) := by
        rw [← hx1, ← hp1, List.takeWhile_append_dropWhile]; exact hs1
      conv_lhs => rw [e1]
      simp only [List.append_assoc]

theorem exp_head {ex b : Text} {e : Int} (h : (ex = [] ∧ e = 0) ∨ ∃ c n, (c = 'e' ∨ c = 'E') ∧ PlainInt n e ∧ ex = c :: n) (hb : Blank b) :
    ∀ c ∈ (ex ++ b).head?, isDig c = false ∧ c ≠ '.' ∧ c ≠ '+' ∧ c ≠ '-' := by
  rcases h with ⟨rfl, -⟩ | ⟨c, n, hc, -, rfl⟩
  · intro c hc
    have h1 := blank_head hb c hc
    refine ⟨not_dig_ws h1, ?_, ?_, ?_⟩ <;> (rintro rfl; revert h1; decide)
  · intro d hd
    simp only [List.cons_append, List.head?_cons, Option.mem_def, Option.some.injEq] at hd
    subst hd
    rcases hc with rfl | rfl <;> decide

theorem extractDbl_of {m b : Text} {q : ℚ} (h : PlainDec m q) (hb : Blank b) : extractDbl (m ++ b) = some (q, b) := by
  obtain ⟨sg, σ, ip, point, fp, ex, e, hs, hi, hf, h0, hp, hx, rfl, rfl⟩ := h
  have hhead := exp_head hx hb
  have hfr : takeFrac (point ++ fp ++ (ex ++ b)) = (fp, ex ++ b) :=
    takeFrac_of hp hf (fun c hc => (hhead c hc).1) (fun c hc => (hhead c hc).2.1)
  have hnd : NoDig (point ++ fp ++ (ex ++ b)) := by
    rcases hp with rfl | ⟨rfl, rfl⟩
    · intro c hc
      simp at hc; subst hc; decide
    · exact fun c hc => (hhead c hc).1
  obtain ⟨ht, hd⟩ := takeWhile_split (digits_all.1 hi) hnd
  have hsg : ∀ c ∈ (ip ++ (point ++ fp ++ (ex ++ b))).head?, c ≠ '+' ∧ c ≠ '-' := by
    cases ip with
    | cons d ip => exact digit_sign hi (by simp)
    | nil =>
      rcases hp with rfl | ⟨rfl, rfl⟩
      · intro c hc
        simp at hc; subst hc; decide
      · exact absurd ⟨rfl, rfl⟩ h0
  obtain ⟨bb, hb1, hb2⟩ := takeSign_of hs hsg
  have e1 : sg ++ ip ++ point ++ fp ++ ex ++ b = sg ++ (ip ++ (point ++ fp ++ (ex ++ b))) := by simp only [List.append_assoc]
  rw [e1]
  unfold extractDbl
  simp only [hb1, ht, hd, hfr, if_neg h0, takeExp_of hx hb, hb2, natOf_eq]
  push_cast
  rfl

theorem plainDec_noWs {m : Text} {q : ℚ} (h : PlainDec m q) (r : Text) : ∀ c ∈ (m ++ r).head?, isWs c = false := by
  obtain ⟨sg, σ, ip, point, fp, ex, e, hs, hi, hf, h0, hp, hx, rfl, rfl⟩ := h
  have e1 : sg ++ ip ++ point ++ fp ++ ex ++ r = sg ++ (ip ++ (point ++ fp ++ (ex ++ r))) := by simp only [List.append_assoc]
  rw [e1]
  refine sign_noWs hs ?_
  cases ip with
  | cons d ip => exact digits_noWs hi (by simp)
  | nil =>
    rcases hp with rfl | ⟨rfl, rfl⟩
    · intro c hc
      simp at hc; subst hc; decide
    · exact absurd ⟨rfl, rfl⟩ h0

theorem parseDbl_iff (s : Text) (q : ℚ) : parseDbl s = some q ↔ Padded PlainDec s q := by
  constructor
  · intro h
    unfold parseDbl at h
    split at h
    · cases h
    · next q' r hr =>
      split_ifs at h with h1
      cases h
      obtain ⟨m, hm, hm1⟩ := extractDbl_spec hr
      refine ⟨s.takeWhile isWs, m, r, blank_all.2 fun c hc => List.mem_takeWhile_imp hc, blank_all.2 (dropWhile_all.1 h1), ?_, hm⟩
      rw [List.append_assoc, ← hm1, List.takeWhile_append_dropWhile]
  · rintro ⟨a, m, b, ha, hb, rfl, hm⟩
    have h1 : (a ++ m ++ b).dropWhile isWs = m ++ b := by
      rw [List.append_assoc]
      exact (takeWhile_split (blank_all.1 ha) (plainDec_noWs hm b)).2
    unfold parseDbl
    rw [h1, extractDbl_of hm hb]
    simp only [dropWhile_all.2 (blank_all.1 hb), if_true]

theorem castDbl_iff (s : Text) (q : ℚ) : castDbl s = some q ↔ PlainDec s q := by
  constructor
  · intro h
    unfold castDbl at h
    split at h
    · cases h
    · next q' r hr =>
      split_ifs at h with h1
      cases h
      obtain ⟨m, hm, hm1⟩ := extractDbl_spec hr
      rw [h1, List.append_nil] at hm1
      rw [hm1]; exact hm
  · intro h
    have := extractDbl_of (b := []) h (fun c hc => by cases hc)
    rw [List.append_nil] at this
    unfold castDbl
    rw [this]; rfl

/-! ## Booleans -/

theorem word_iff (w s : Text) (hw : ∀ r : Text, ∀ c ∈ (w ++ r).head?, isWs c = false) :
    ((s.dropWhile isWs).take w.length = w ∧ ((s.dropWhile isWs).drop w.length).dropWhile isWs = []) ↔
      Padded (fun m (_ : Unit) => m = w) s () := by
  constructor
  · rintro ⟨h1, h2⟩
    refine ⟨s.takeWhile isWs, w, (s.dropWhile isWs).drop w.length, blank_all.2 fun c hc => List.mem_takeWhile_imp hc, blank_all.2 (dropWhile_all.1 h2), ?_, rfl⟩
    have : w ++ (s.dropWhile isWs).drop w.length = s.dropWhile isWs := by
      conv_rhs => rw [← List.take_append_drop w.length (s.dropWhile isWs), h1]
    rw [List.append_assoc, this, List.takeWhile_append_dropWhile]
  · rintro ⟨a, m, b, ha, hb, rfl, rfl⟩
    have h1 : (a ++ m ++ b).dropWhile isWs = m ++ b := by
      rw [List.append_assoc]
      exact (takeWhile_split (blank_all.1 ha) (hw b)).2
    rw [h1]
    simp only [List.take_left', List.drop_left', true_and]
    exact dropWhile_all.2 (blank_all.1 hb)

/-- A text has at most one reading as a number or a word. -/
theorem padded_int_unique {s : Text} {v v' : Int} (h : Padded PlainInt s v) (h' : Padded PlainInt s v') : v = v' := by
  rw [← int_iff] at h h'
  exact h.2.2.symm.trans h'.2.2

theorem conv_bool_iff (s : Text) (v : Val) : conv .bool s = some v ↔ IsA .bool s v := by
  have ht := word_iff "true".toList s (by intro r c hc; simp at hc; subst hc; decide)
  have hf := word_iff "false".toList s (by intro r c hc; simp at hc; subst hc; decide)
  have e4 : ("true".toList : Text).length = 4 := rfl
  have e5 : ("false".toList : Text).length = 5 := rfl
  rw [e4] at ht; rw [e5] at hf
  have h0 := parseInt_iff s 0
  have h1 := parseInt_iff s 1
  have h0' : parseInt s = some 0 ↔ Padded PlainInt s 0 := by rw [h0]; constructor; exact fun h => h.1; exact fun h => ⟨h, by decide, by decide⟩
  have h1' : parseInt s = some 1 ↔ Padded PlainInt s 1 := by rw [h1]; constructor; exact fun h => h.1; exact fun h => ⟨h, by decide, by decide⟩
  -- the readings exclude each other
  have x1 : Padded PlainInt s 0 → ¬ Padded PlainInt s 1 := fun a b => absurd (padded_int_unique a b) (by decide)
  have xw : ∀ w : Text, (∀ r c, c ∈ (w ++ r).head? → isDig c = false ∧ c ≠ '+' ∧ c ≠ '-' ∧ isWs c = false) → w ≠ [] → ∀ n, Padded PlainInt s n → ¬ Padded (fun m (_ : Unit) => m = w) s () := by
    intro w hw hne n hn hp
    rw [← int_iff] at hn
    obtain ⟨a, m, b, ha, hb, rfl, rfl⟩ := hp
    have h2 : (a ++ m ++ b).dropWhile isWs = m ++ b := by
      rw [List.append_assoc]
      exact (takeWhile_split (blank_all.1 ha) fun c hc => (hw b c hc).2.2.2).2
    rw [h2] at hn
    obtain ⟨bb, hb1, -⟩ := takeSign_of (sg := []) (σ := 1) (r := m ++ b) (.inl ⟨rfl, rfl⟩) fun c hc => ⟨(hw b c hc).2.1, (hw b c hc).2.2.1⟩
    rw [List.nil_append] at hb1
    rw [hb1] at hn
    have := (takeWhile_split (p := isDig) (a := []) (b := m ++ b) (fun c hc => by cases hc) fun c hc => (hw b c hc).1).1
    rw [List.nil_append] at this
    exact hn.1 this
  have xt := xw "true".toList (by intro r c hc; simp at hc; subst hc; decide) (by decide)
  have xf := xw "false".toList (by intro r c hc; simp at hc; subst hc; decide) (by decide)
  have xtf : Padded (fun m (_ : Unit) => m = "true".toList) s () → ¬ Padded (fun m (_ : Unit) => m = "false".toList) s () := by
    rw [← ht, ← hf]
    rintro ⟨a, -⟩ ⟨b, -⟩
    have := congrArg (List.take 1) a
    have h2 := congrArg (List.take 1) b
    rw [List.take_take] at this h2
    exact absurd (this.symm.trans h2) (by decide)
  unfold conv parseBool IsA
  simp only
  by_cases c0 : parseInt s = some 0
  · rw [if_pos c0]
    have p0 := h0'.1 c0
    simp only [Option.map_some, Option.some.injEq]
    constructor
    · rintro rfl; exact .inl ⟨by simp, .inl p0⟩
    · rintro (⟨rfl, -⟩ | ⟨rfl, h | h⟩)
      · simp
      · exact absurd h (x1 p0)
      · exact absurd h (xt 0 p0)
  rw [if_neg c0]
  by_cases c1 : parseInt s = some 1
  · rw [if_pos c1]
    have p1 := h1'.1 c1
    simp only [Option.map_some, Option.some.injEq]
    constructor
    · rintro rfl; exact .inr ⟨by simp, .inl p1⟩
    · rintro (⟨rfl, h | h⟩ | ⟨rfl, -⟩)
      · exact absurd p1 (x1 h)
      · exact absurd h (xf 1 p1)
      · simp
  rw [if_neg c1]
  rw [← ht, ← hf, ← h0', ← h1']
  rw [← ht, ← hf] at xtf
  split_ifs with c2 c3
  · simp only [Option.map_some, Option.some.injEq, c0, c1, false_or]
    constructor
    · rintro rfl; exact .inr ⟨by simp, c2⟩
    · rintro (⟨rfl, h⟩ | ⟨rfl, -⟩)
      · exact absurd h (xtf c2)
      · simp
  · simp only [Option.map_some, Option.some.injEq, c0, c1, false_or]
    constructor
    · rintro rfl; exact .inl ⟨by simp, c3⟩
    · rintro (⟨rfl, -⟩ | ⟨rfl, h⟩)
      · simp
      · exact absurd h c2
  · constructor
    · intro h; cases h
    · rintro (⟨-, h | h⟩ | ⟨-, h | h⟩)
      · exact absurd h c0
      · exact absurd h c3
      · exact absurd h c1
      · exact absurd h c2

/-- The readers accept exactly the texts of their types. -/
theorem conv_iff (ty : Ty) (s : Text) (v : Val) : conv ty s = some v ↔ IsA ty s v := by
  cases ty
  case bool => exact conv_bool_iff s v
  case str => simp [conv, IsA, eq_comm]
  case int =>
    simp only [conv, IsA, Option.map_eq_some_iff, parseInt_iff, and_assoc]
    exact exists_congr fun n => by rw [eq_comm (a := Val.num _)]
  case flag =>
    simp only [conv, IsA, Option.map_eq_some_iff, parseInt_iff, and_assoc]
    exact exists_congr fun n => by rw [eq_comm (a := Val.num _)]
  case uint =>
    simp only [conv, IsA, Option.map_eq_some_iff, parseUint_iff]
    constructor
    · rintro ⟨a, ⟨n, h1, h2, h3, rfl⟩, rfl⟩; exact ⟨n, h1, h2, h3, rfl⟩
    · rintro ⟨n, h1, h2, h3, rfl⟩; exact ⟨_, ⟨n, h1, h2, h3, rfl⟩, rfl⟩
  case dbl =>
    simp only [conv, IsA, Option.map_eq_some_iff, parseDbl_iff]
    exact exists_congr fun n => by rw [eq_comm (a := Val.num _)]

/-! ## The statements of a reader -/

/-- Every option is read once, and every variable used as a default has been read before. -/
def valid : List String → List Rd → Bool
  | _, [] => true
  | seen, r :: rs => !seen.contains r.opt && (match r.dflt with | .of o => seen.contains o | _ => true) && valid (r.opt :: seen) rs

theorem get_congr (t : Tree) (r : Rd) {e e' : Env} (h : ∀ o, r.dflt = .of o → e o = e' o) : getOpt t e r = getOpt t e' r := by
  unfold getOpt
  cases hd : r.dflt with
  | of o => simp only [h o hd]
  | _ => rfl

theorem fold_ok (t : Tree) : ∀ (rs : List Rd) (seen : List String) (e0 env : Env), valid seen rs = true →
    rs.foldlM (step t) e0 = .ok env → (∀ o ∈ seen, env o = e0 o) ∧ ∀ r ∈ rs, ∃ v, getOpt t env r = .ok v ∧ env r.opt = some (store r v) := by
  intro rs
  induction rs with
  | nil =>
    intro seen e0 env _ h
    have : e0 = env := by simpa [pure, Except.pure] using h
    subst this
    exact ⟨fun _ _ => rfl, fun r hr => by cases hr⟩
  | cons r rs ih =>
    intro seen e0 env hv h
    rw [List.foldlM_cons] at h
    simp only [valid, Bool.and_eq_true, Bool.not_eq_true'] at hv
    obtain ⟨⟨h1, h2⟩, h3⟩ := hv
    have h1' : r.opt ∉ seen := by simpa using h1
    cases hg : getOpt t e0 r with
    | error e => simp [step, hg, bind, Except.bind] at h
    | ok v =>
      have hs : step t e0 r = .ok fun o => if o = r.opt then some (store r v) else e0 o := by simp only [step, hg]
      rw [hs] at h
      obtain ⟨h4, h5⟩ := ih (r.opt :: seen) _ env h3 h
      have h6 : ∀ o ∈ seen, env o = e0 o := by
        intro o ho
        rw [h4 o (by simp [ho]), if_neg]
        rintro rfl; exact h1' ho
      refine ⟨h6, ?_⟩
      intro r' hr'
      rcases List.mem_cons.1 hr' with rfl | hr'
      · refine ⟨v, ?_, ?_⟩
        · rw [← hg]
          refine get_congr t r' fun o ho => h6 o ?_
          rw [ho] at h2; simpa using h2
        · rw [h4 _ (by simp), if_pos rfl]
      · exact h5 r' hr'

/-- What a statement needs: a mandatory option that is present and of its type. -/
def fine (t : Tree) (r : Rd) : Prop := r.dflt = .req → ∃ s v, t.val r.opt = some s ∧ conv r.ty s = some v

theorem get_fine {t : Tree} {r : Rd} {e : Env} {v : Val} (h : getOpt t e r = .ok v) : fine t r := by
  intro hd
  unfold getOpt at h
  rw [hd] at h
  cases hs : t.val r.opt with
  | none => simp [hs] at h
  | some s =>
    cases hc : conv r.ty s with
    | none => simp [hs, hc] at h
    | some w => exact ⟨s, w, rfl, hc⟩

theorem fine_get {t : Tree} {r : Rd} {e : Env} (h : fine t r) (he : ∀ o, r.dflt = .of o → (e o).isSome) : ∃ v, getOpt t e r = .ok v := by
  unfold getOpt
  cases hd : r.dflt with
  | req =>
    obtain ⟨s, v, h1, h2⟩ := h hd
    exact ⟨v, by simp [h1, h2]⟩
  | num q => cases hs : t.val r.opt with
    | none => exact ⟨_, rfl⟩
    | some s => cases hc : conv r.ty s <;> exact ⟨_, by simp only [hc]; rfl⟩
  | text q => cases hs : t.val r.opt with
    | none => exact ⟨_, rfl⟩
    | some s => cases hc : conv r.ty s <;> exact ⟨_, by simp only [hc]; rfl⟩
  | of o =>
    obtain ⟨w, hw⟩ := Option.isSome_iff_exists.1 (he o hd)
    cases hs : t.val r.opt with
    | none => exact ⟨w, by simp [hw]⟩
    | some s => cases hc : conv r.ty s with
      | none => exact ⟨w, by simp [hc, hw]⟩
      | some u => exact ⟨u, by simp [hc]⟩

/-- The errors of a statement. -/
theorem get_error {t : Tree} {r : Rd} {e : Env} {x : CErr} (h : getOpt t e r = .error x) (he : ∀ o, r.dflt = .of o → (e o).isSome) :
    r.dflt = .req ∧ ((t.val r.opt = none ∧ x = .badPath r.opt) ∨ ∃ s, t.val r.opt = some s ∧ conv r.ty s = none ∧ x = .badData r.opt) := by
  by_cases hf : fine t r
  · obtain ⟨v, hv⟩ := fine_get hf he
    rw [hv] at h; cases h
  · have hd : r.dflt = .req := by
      by_contra hd
      exact hf fun h => absurd h hd
    refine ⟨hd, ?_⟩
    unfold getOpt at h
    rw [hd] at h
    cases hs : t.val r.opt with
    | none => simp only [hs] at h; cases h; exact .inl ⟨rfl, rfl⟩
    | some s =>
      cases hc : conv r.ty s with
      | none => simp only [hs, hc] at h; cases h; exact .inr ⟨s, rfl, hc, rfl⟩
      | some w => exact absurd (fun _ => ⟨s, w, hs, hc⟩) hf

theorem fold_total (t : Tree) : ∀ (rs : List Rd) (seen : List String) (e0 : Env), valid seen rs = true → (∀ o ∈ seen, (e0 o).isSome) →
    (∃ env, rs.foldlM (step t) e0 = .ok env ∧ ∀ r ∈ rs, fine t r) ∨
    (∃ r ∈ rs, r.dflt = .req ∧ ((t.val r.opt = none ∧ rs.foldlM (step t) e0 = .error (.badPath r.opt)) ∨
      ∃ s, t.val r.opt = some s ∧ conv r.ty s = none ∧ rs.foldlM (step t) e0 = .error (.badData r.opt))) := by
  intro rs
  induction rs with
  | nil => intro seen e0 _ _; exact .inl ⟨e0, rfl, fun r hr => by cases hr⟩
  | cons r rs ih =>
    intro seen e0 hv he
    simp only [valid, Bool.and_eq_true, Bool.not_eq_true'] at hv
    obtain ⟨⟨h1, h2⟩, h3⟩ := hv
    have hof : ∀ o, r.dflt = .of o → (e0 o).isSome := by
      intro o ho
      rw [ho] at h2
      exact he o (by simpa using h2)
    rw [List.foldlM_cons]
    cases hg : getOpt t e0 r with
    | error x =>
      have hs : step t e0 r = .error x := by simp only [step, hg]
      rw [hs]
      obtain ⟨hd, h4⟩ := get_error hg hof
      refine .inr ⟨r, by simp, hd, ?_⟩
      rcases h4 with ⟨h4, rfl⟩ | ⟨s, h4, h5, rfl⟩
      · exact .inl ⟨h4, rfl⟩
      · exact .inr ⟨s, h4, h5, rfl⟩
    | ok v =>
      have hs : step t e0 r = .ok fun o => if o = r.opt then some (store r v) else e0 o := by simp only [step, hg]
      rw [hs]
      rcases ih (r.opt :: seen) (fun o => if o = r.opt then some (store r v) else e0 o) h3 (by
        intro o ho
        split_ifs with h
        · rfl
        · exact he o ((List.mem_cons.1 ho).resolve_left h)) with ⟨env, h4, h5⟩ | ⟨r', hr', h4⟩
      · refine .inl ⟨env, h4, ?_⟩
        intro r' hr'
        rcases List.mem_cons.1 hr' with rfl | hr'
        · exact get_fine hg
        · exact h5 r' hr'
      · exact .inr ⟨r', by simp [hr'], h4⟩

theorem valid_reads (p : Prog) : valid [] (reads p) = true := by
  cases p <;> decide +kernel

theorem mapM_ok_iff {α β ε : Type} (f : α → Except ε β) (l : List α) (ys : List β) :
    l.mapM f = .ok ys ↔ List.Forall₂ (fun a b => f a = .ok b) l ys := by
  induction l generalizing ys with
  | nil => cases ys <;> simp [pure, Except.pure]
  | cons a l ih =>
    rw [List.mapM_cons]
    cases ha : f a with
    | error e =>
      simp only [bind, Except.bind, reduceCtorEq, false_iff]
      intro h; cases h with | cons h1 h2 => rw [ha] at h1; cases h1
    | ok b =>
      cases hl : l.mapM f with
      | error e =>
        simp only [bind, Except.bind, reduceCtorEq, false_iff]
        intro h; cases h with | cons h1 h2 => rw [← ih, hl] at h2; cases h2
      | ok bs =>
        simp only [bind, Except.bind, pure, Except.pure, Except.ok.injEq]
        constructor
        · rintro rfl; exact .cons ha ((ih bs).1 hl)
        · intro h
          cases h with
          | cons h1 h2 =>
            rw [ha] at h1; cases h1
            rw [← ih, hl] at h2; cases h2; rfl

/-- The parts of a successful reading. -/
theorem load_ok {p : Prog} {t : Tree} {c : Cfg} :
    load p t = .ok c ↔ readAll t (reads p) = .ok c.env ∧ logDirOf p c.env = .ok c.logDir ∧ dataDirOf p c.env = .ok c.dataDir ∧ pdOf p t = .ok c.pd := by
  constructor
  · intro h
    unfold load at h
    cases h1 : readAll t (reads p) with
    | error e => simp [h1] at h
    | ok env =>
      cases h2 : logDirOf p env with
      | error e => simp [h1, h2] at h
      | ok l =>
        cases h3 : dataDirOf p env with
        | error e => simp [h1, h2, h3] at h
        | ok d =>
          cases h4 : pdOf p t with
          | error e => simp [h1, h2, h3, h4] at h
          | ok q =>
            simp only [h1, h2, h3, h4, Except.ok.injEq] at h
            subst h
            exact ⟨rfl, h2, h3, rfl⟩
  · rintro ⟨h1, h2, h3, h4⟩
    unfold load
    simp only [h1, h2, h3, h4]

end RFS.Config
