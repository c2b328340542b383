import Verif.Model.ConfigFiles
import Verif.Lemmas.Config
import Verif.Props.ParticleFilter
import Mathlib.Tactic.NormNum
import Mathlib.Algebra.BigOperators.Ring.List

/-!
# Properties of the configuration (C197–C202)
-/

set_option linter.unusedSectionVars false

namespace RFS.ConfigProps
open RFS RFS.Config RFS.PF

/-! ## C197 -/

/-- What a user means by a text written for a variable of a type. -/
def Denotes : Ty → Text → Val → Prop
  | .int, s, v => ∃ n, Padded PlainInt s n ∧ -2147483648 ≤ n ∧ n ≤ 2147483647 ∧ v = .num n
  | .uint, s, v => ∃ n, Padded PlainInt s n ∧ 0 ≤ n ∧ n ≤ 4294967295 ∧ v = .num n
  | .dbl, s, v => ∃ q, Padded PlainDec s q ∧ v = .num q
  | .bool, s, v => (v = .num 0 ∧ (Padded PlainInt s 0 ∨ Padded (fun m (_ : Unit) => m = "false".toList) s ())) ∨
      (v = .num 1 ∧ (Padded PlainInt s 1 ∨ Padded (fun m (_ : Unit) => m = "true".toList) s ()))
  | .flag, s, v => ∃ n, Padded PlainInt s n ∧ -2147483648 ≤ n ∧ n ≤ 2147483647 ∧ v = .num (if n = 1 then 1 else 0)
  | .str, s, v => v = .text s

/-- A real-valued variable whose option is read as a whole number (because the default is one). -/
def Narrow (r : Rd) : Prop := r.var = .dbl ∧ r.ty = .int

instance (r : Rd) : Decidable (Narrow r) := inferInstanceAs (Decidable (_ ∧ _))

/-- The types of the conversions and of the variables. -/
theorem types (p : Prog) : ∀ r ∈ reads p, r.var = r.ty ∨ (r.var = .flag ∧ r.ty = .int) ∨
    (Narrow r ∧ (r.opt = "config.filter.resampling.effNParticle" ∨ r.opt = "config.measurements.addedClutter")) := by
  cases p <;> decide +kernel

/-- The variable after a successful reading, in terms of the text. -/
theorem env_of {p : Prog} {t : Tree} {c : Cfg} (h : load p t = .ok c) {r : Rd} (hr : r ∈ reads p) :
    ∃ v, getOpt t c.env r = .ok v ∧ c.env r.opt = some (store r v) :=
  (fold_ok t (reads p) [] _ c.env (valid_reads p) (load_ok.1 h).1).2 r hr

theorem get_conv {t : Tree} {env : Env} {r : Rd} {s : Text} {v : Val} (hs : t.val r.opt = some s) (hc : conv r.ty s = some v) :
    getOpt t env r = .ok v := by
  unfold getOpt
  simp only [hs, hc]

/-- C197 (partial): in every program and for every file that it accepts, an option that is written in the file reaches the program with the value written, except for real-valued variables whose option is
read as a whole number (see `C197_whole_partial` and `C197_threshold_violated`). -/
theorem C197_written_partial (p : Prog) (t : Tree) (c : Cfg) (h : load p t = .ok c) (r : Rd) (hr : r ∈ reads p) (hn : ¬ Narrow r)
    (s : Text) (v : Val) (hs : t.val r.opt = some s) (hv : Denotes r.var s v) : c.env r.opt = some v := by
  obtain ⟨w, hw, he⟩ := env_of h hr
  rw [he]
  rcases types p r hr with ht | ⟨ht, ht'⟩ | ⟨hn', -⟩
  · by_cases hf : r.var = .flag
    · rw [ht] at hf
      rw [ht, hf] at hv
      obtain ⟨n, h1, h2, h3, rfl⟩ := hv
      have hc : conv r.ty s = some (.num n) := by rw [conv_iff, hf]; exact ⟨n, h1, h2, h3, rfl⟩
      rw [get_conv hs hc] at hw
      cases hw
      simp only [store, ht, hf, if_true, Val.num.injEq]
      congr 3
      exact_mod_cast rfl
    · have hc : conv r.ty s = some v := by
        rw [conv_iff, ← ht]
        generalize r.var = ty at hv hf
        cases ty
        case uint =>
          obtain ⟨n, h1, h2, h3, rfl⟩ := hv
          refine ⟨n, h1, by omega, h3, ?_⟩
          rw [Int.emod_eq_of_lt h2 (by omega)]
        case flag => exact absurd rfl hf
        all_goals exact hv
      rw [get_conv hs hc] at hw
      cases hw
      simp [store, hf]
  · rw [ht] at hv
    obtain ⟨n, h1, h2, h3, rfl⟩ := hv
    have hc : conv r.ty s = some (.num n) := by rw [conv_iff, ht']; exact ⟨n, h1, h2, h3, rfl⟩
    rw [get_conv hs hc] at hw
    cases hw
    simp only [store, ht, if_true, Val.num.injEq]
    congr 3
    exact_mod_cast rfl
  · exact absurd hn' hn

/-- C197 (partial): the options of the exception reach the program with the value written if it is written as a whole number. -/
theorem C197_whole_partial (p : Prog) (t : Tree) (c : Cfg) (h : load p t = .ok c) (r : Rd) (hr : r ∈ reads p) (hn : Narrow r)
    (s : Text) (n : Int) (hs : t.val r.opt = some s) (hv : Padded PlainInt s n) (h1 : -2147483648 ≤ n) (h2 : n ≤ 2147483647) :
    c.env r.opt = some (.num n) := by
  obtain ⟨w, hw, he⟩ := env_of h hr
  have hc : conv r.ty s = some (.num n) := by rw [conv_iff, hn.2]; exact ⟨n, hv, h1, h2, rfl⟩
  rw [get_conv hs hc] at hw
  cases hw
  rw [he, store, if_neg]
  rw [hn.1]; decide

/-- C197 (partial): an option that is not written has the value of its default: the literal, or the variable that the default names. -/
theorem C197_default_partial (p : Prog) (t : Tree) (c : Cfg) (h : load p t = .ok c) (r : Rd) (hr : r ∈ reads p) (hs : t.val r.opt = none) :
    (∀ q, r.dflt = .num q → r.var ≠ .flag → c.env r.opt = some (.num q)) ∧ (∀ s, r.dflt = .text s → r.var ≠ .flag → c.env r.opt = some (.text s)) ∧
    (∀ o, r.dflt = .of o → r.var ≠ .flag → c.env r.opt = c.env o) := by
  obtain ⟨w, hw, he⟩ := env_of h hr
  unfold getOpt at hw
  simp only [hs] at hw
  refine ⟨?_, ?_, ?_⟩
  · intro q hd hf
    rw [hd] at hw
    cases hw
    simp [he, store, hf]
  · intro q hd hf
    rw [hd] at hw
    cases hw
    simp [he, store, hf]
  · intro o hd hf
    rw [hd] at hw
    simp only at hw
    cases ho : c.env o with
    | none => simp [ho] at hw
    | some u =>
      simp only [ho] at hw
      cases hw
      simp [he, store, hf]

/-- A number with a decimal point is not a whole number, so the option of the exception keeps its default. -/
theorem C197_narrow_default (p : Prog) (t : Tree) (c : Cfg) (h : load p t = .ok c) (r : Rd) (hr : r ∈ reads p) (hn : Narrow r) (s : Text)
    (hs : t.val r.opt = some s) (hv : '.' ∈ s) :
    (∀ q, r.dflt = .num q → c.env r.opt = some (.num q)) ∧ (∀ o, r.dflt = .of o → c.env r.opt = c.env o) := by
  obtain ⟨w, hw, he⟩ := env_of h hr
  have hc : conv r.ty s = none := by
    cases hc : conv r.ty s with
    | none => rfl
    | some u =>
      exfalso
      rw [conv_iff, hn.2] at hc
      obtain ⟨n, ⟨a, m, b, ha, hb, rfl, sg, σ, ds, hs1, hd, -, rfl, -⟩, -⟩ := hc
      simp only [List.mem_append] at hv
      rcases hv with (hv | hv | hv) | hv
      · exact absurd (ha _ hv) (by decide)
      · rcases hs1 with ⟨rfl, -⟩ | ⟨rfl, -⟩ | ⟨rfl, -⟩ <;> revert hv <;> decide
      · exact absurd (hd _ hv) (by decide)
      · exact absurd (hb _ hv) (by decide)
  have hf : r.var ≠ .flag := by rw [hn.1]; decide
  unfold getOpt at hw
  simp only [hs, hc] at hw
  constructor
  · intro q hd
    rw [hd] at hw
    cases hw
    simp [he, store, hf]
  · intro o hd
    rw [hd] at hw
    simp only at hw
    cases ho : c.env o with
    | none => simp [ho] at hw
    | some u =>
      simp only [ho] at hw
      cases hw
      simp [he, store, hf]

/-- The text of the shipped file for the threshold of the effective number of particles, its meaning, and the value the program works with: every filter program with the file it is shipped with. -/
theorem C197_threshold_violated :
    ∀ e ∈ [(Prog.phd2d, "100.0", 100, 200), (.fast2d, "100.0", 100, 200), (.fastVP, "25.0", 25, 100), (.phdVP, "50.0", 50, 100), (.cbm2d, "100.0", 100, 200),
      (.lmb2d, "100.0", 100, 200), (.phd6d, "500.0", 500, 1000)],
    ∃ t c, shipped e.1 = some t ∧ load e.1 t = .ok c ∧
      (⟨"config.filter.resampling.effNParticle", .int, .of "config.filter.nParticles", .dbl⟩ : Rd) ∈ reads e.1 ∧
      t.val "config.filter.resampling.effNParticle" = some e.2.1.toList ∧ Denotes .dbl e.2.1.toList (.num e.2.2.1) ∧
      c.env "config.filter.resampling.effNParticle" = some (.num e.2.2.2) ∧ (e.2.2.1 : ℚ) ≠ e.2.2.2 := by
  have key : ∀ (p : Prog) (w : String) (q q' : ℚ) (t : Tree), shipped p = some t → (⟨"config.filter.resampling.effNParticle", .int, .of "config.filter.nParticles", .dbl⟩ : Rd) ∈ reads p →
      t.val "config.filter.resampling.effNParticle" = some w.toList → parseDbl w.toList = some q →
      (load p t).toOption.map (fun c => c.env "config.filter.resampling.effNParticle") = some (some (.num q')) → q ≠ q' →
      ∃ t c, shipped p = some t ∧ load p t = .ok c ∧
      (⟨"config.filter.resampling.effNParticle", .int, .of "config.filter.nParticles", .dbl⟩ : Rd) ∈ reads p ∧
      t.val "config.filter.resampling.effNParticle" = some w.toList ∧ Denotes .dbl w.toList (.num q) ∧
      c.env "config.filter.resampling.effNParticle" = some (.num q') ∧ q ≠ q' := by
    intro p w q q' t h1 h2 h3 h4 h5 h6
    cases hl : load p t with
    | error e => rw [hl] at h5; cases h5
    | ok c =>
      rw [hl] at h5
      simp only [Except.toOption, Option.map_some, Option.some.injEq] at h5
      exact ⟨t, c, h1, hl, h2, h3, ⟨q, (parseDbl_iff _ _).1 h4, rfl⟩, h5, h6⟩
  intro e he
  simp only [List.mem_cons, List.not_mem_nil, or_false] at he
  rcases he with rfl | rfl | rfl | rfl | rfl | rfl | rfl
  all_goals exact key _ _ _ _ _ rfl (by decide +kernel) (by decide +kernel) (by decide +kernel) (by decide +kernel) (by norm_num)

theorem sq_sum_le {K : Type*} [Field K] [LinearOrder K] [IsStrictOrderedRing K] (l : List K) : l.sum * l.sum ≤ l.length * (l.map fun x => x * x).sum := by
  have h2 : ∀ (x : K) (l : List K), 2 * x * l.sum ≤ l.length * (x * x) + (l.map fun x => x * x).sum := by
    intro x l
    induction l with
    | nil => simp
    | cons a l ih =>
      simp only [List.sum_cons, List.length_cons, List.map_cons]
      push_cast
      nlinarith [mul_self_nonneg (x - a)]
  induction l with
  | nil => simp
  | cons a l ih =>
    have := h2 a l
    simp only [List.sum_cons, List.length_cons, List.map_cons]
    push_cast
    nlinarith

/-- What follows for the filters: when the threshold is the number of particles, the filter resamples at every opportunity, whatever the weights, even when they are all equal. -/
theorem C197_always_resamples {S K : Type*} [Field K] [LinearOrder K] [IsStrictOrderedRing K] (P : List (Part S K)) (hpos : 0 < (P.map Part.w).sum)
    (n : Nat) (u : K) (hu0 : 0 ≤ u) (hu1 : u < 1) :
    ∃ P', resample P n false (P.length : K) ((P.length : K) / P.length) u = some (true, P') := by
  obtain ⟨b, P', h1, h2⟩ := PFProps.C70_threshold_partial P hpos n (P.length : K) u hu0 hu1
  have hb : b = true := by
    rw [h2]
    unfold PFProps.nEff
    have hs : ((normalizeWeights P).map Part.w).sum = 1 := by
      unfold normalizeWeights
      rw [List.map_map]
      have : (Part.w ∘ fun p : Part S K => { p with w := p.w / (P.map Part.w).sum }) = fun p => p.w * ((P.map Part.w).sum)⁻¹ := by
        funext p; simp [div_eq_mul_inv]
      rw [this, List.sum_map_mul_right, mul_inv_cancel₀ hpos.ne']
    have h3 := sq_sum_le ((normalizeWeights P).map Part.w)
    rw [hs, List.map_map, List.length_map] at h3
    have h4 : (normalizeWeights P).length = P.length := by simp [normalizeWeights]
    rw [h4] at h3
    have h5 : ((fun x : K => x * x) ∘ Part.w) = fun p : Part S K => p.w * p.w := rfl
    rw [h5] at h3
    set Q := ((normalizeWeights P).map fun p => p.w * p.w).sum
    have hN : (0 : K) ≤ P.length := Nat.cast_nonneg _
    have hQ : 0 < Q := by
      by_contra hq
      have : (P.length : K) * Q ≤ 0 := mul_nonpos_of_nonneg_of_nonpos hN (not_lt.1 hq)
      linarith
    rw [div_le_iff₀ hQ]
    linarith
  subst hb
  exact ⟨P', h1⟩

/-- The shipped files meet the hypotheses of the theorems on written options: the number of particles of the 6-D simulation. -/
example : ∃ c, load .phd6d cfg_rbphdslam6dSim = .ok c ∧ (⟨"config.filter.nParticles", .int, .num 200, .int⟩ : Rd) ∈ reads .phd6d ∧
    cfg_rbphdslam6dSim.val "config.filter.nParticles" = some "1000".toList ∧ Denotes .int "1000".toList (.num 1000) := by
  have h : (load .phd6d cfg_rbphdslam6dSim).toOption.isSome = true := by decide +kernel
  cases hl : load .phd6d cfg_rbphdslam6dSim with
  | error e => rw [hl] at h; cases h
  | ok c =>
    refine ⟨c, rfl, by decide +kernel, by decide +kernel, 1000, ?_, by norm_num, by norm_num, by norm_num⟩
    exact ((parseInt_iff _ _).1 (by decide +kernel)).1

/-! ## C198 -/

/-- A text is of a type. -/
def WellFormed (ty : Ty) (s : Text) : Prop := ∃ v, IsA ty s v

/-- A text option as the program will see it. -/
def TextIs (t : Tree) (o : String) (d : Option Text) (s : Text) : Prop := t.val o = some s ∨ (t.val o = none ∧ d = some s)

theorem text_row {p : Prog} {t : Tree} {env : Env} (h : readAll t (reads p) = .ok env) {o : String} {d : Dflt}
    (hr : (⟨o, .str, d, .str⟩ : Rd) ∈ reads p) (dd : Option Text) (hd : (d = .req ∧ dd = none) ∨ ∃ s, d = .text s ∧ dd = some s) :
    ∃ s, TextIs t o dd s ∧ textOf env o = s := by
  obtain ⟨v, h1, h2⟩ := (fold_ok t (reads p) [] _ env (valid_reads p) h).2 _ hr
  simp only [store] at h2
  unfold getOpt at h1
  simp only at h1
  cases hv : t.val o with
  | none =>
    rw [hv] at h1
    rcases hd with ⟨rfl, rfl⟩ | ⟨s, rfl, rfl⟩
    · cases h1
    · cases h1
      exact ⟨s, .inr ⟨hv, rfl⟩, by simp [textOf, h2]⟩
  | some s =>
    rw [hv] at h1
    simp only [conv] at h1
    cases h1
    exact ⟨s, .inl hv, by simp [textOf, h2]⟩

theorem log_row (p : Prog) : (⟨"config.logging.logDirPrefix", .str, .text "./".toList, .str⟩ : Rd) ∈ reads p := by cases p <;> decide +kernel

theorem data_row (p : Prog) (hp : park p = true) : (⟨"config.dataset.directory", .str, .req, .str⟩ : Rd) ∈ reads p := by
  cases p <;> first | (exact absurd hp (by decide)) | decide +kernel

theorem addSlash_ok (s : Text) : (∃ d, addSlash s = .ok d) ↔ s ≠ [] := by
  unfold addSlash
  cases h : s.getLast? with
  | none => simp [List.getLast?_eq_none_iff.1 h]
  | some c =>
    have : s ≠ [] := by rintro rfl; simp at h
    simp [this]

theorem textIs_unique {t : Tree} {o : String} {d : Option Text} {s s' : Text} (h : TextIs t o d s) (h' : TextIs t o d s') : s = s' := by
  rcases h with h | ⟨h, h1⟩ <;> rcases h' with h' | ⟨h', h1'⟩
  · rw [h] at h'; exact Option.some.inj h'
  · rw [h] at h'; cases h'
  · rw [h] at h'; cases h'
  · rw [h1] at h1'; exact Option.some.inj h1'

/-- C198: when a program starts with a configuration: the options without a default are present and of their types; where the directory of the logs is completed with a slash it is not the empty text;
and for the Victoria Park programs the data directory is not empty and the detection probabilities are a list of plain numbers. -/
theorem C198_accepted_iff (p : Prog) (t : Tree) :
    (∃ c, load p t = .ok c) ↔
      (∀ r ∈ reads p, r.dflt = .req → ∃ s, t.val r.opt = some s ∧ WellFormed r.ty s) ∧
      (slash p = true → t.val "config.logging.logDirPrefix" ≠ some []) ∧
      (park p = true → t.val "config.dataset.directory" ≠ some [] ∧ ∃ l, t.pd = some l ∧ ∀ x ∈ l, ∃ q, PlainDec x.text q) := by
  have hfine : ∀ r, fine t r ↔ (r.dflt = .req → ∃ s, t.val r.opt = some s ∧ WellFormed r.ty s) := by
    intro r
    constructor
    · intro h hd
      obtain ⟨s, v, h1, h2⟩ := h hd
      exact ⟨s, h1, v, (conv_iff _ _ _).1 h2⟩
    · intro h hd
      obtain ⟨s, h1, v, h2⟩ := h hd
      exact ⟨s, v, h1, (conv_iff _ _ _).2 h2⟩
  have hlog : ∀ env, readAll t (reads p) = .ok env → (textOf env "config.logging.logDirPrefix" ≠ [] ↔ t.val "config.logging.logDirPrefix" ≠ some []) := by
    intro env he
    obtain ⟨s, h1, h2⟩ := text_row he (log_row p) (some "./".toList) (.inr ⟨_, rfl, rfl⟩)
    rw [h2]
    rcases h1 with h1 | ⟨h1, h1'⟩
    · rw [h1]; simp
    · rw [h1]; cases h1'; simp
  have hdata : park p = true → ∀ env, readAll t (reads p) = .ok env → (textOf env "config.dataset.directory" ≠ [] ↔ t.val "config.dataset.directory" ≠ some []) := by
    intro hp env he
    obtain ⟨s, h1, h2⟩ := text_row he (data_row p hp) none (.inl ⟨rfl, rfl⟩)
    rw [h2]
    rcases h1 with h1 | ⟨h1, h1'⟩
    · rw [h1]; simp
    · cases h1'
  have hpd : (∃ q, readPd t = .ok q) ↔ ∃ l, t.pd = some l ∧ ∀ x ∈ l, ∃ q, PlainDec x.text q := by
    unfold readPd
    cases t.pd with
    | none => simp
    | some l =>
      simp only [Option.some.injEq, exists_eq_left', mapM_ok_iff]
      induction l with
      | nil => simp
      | cons x l ih =>
        simp only [List.forall_mem_cons, ← ih]
        constructor
        · rintro ⟨q, h⟩
          cases h with
          | cons h1 h2 =>
            refine ⟨?_, _, h2⟩
            cases hc : castDbl x.text with
            | none => rw [hc] at h1; cases h1
            | some q => exact ⟨q, (castDbl_iff _ _).1 hc⟩
        · rintro ⟨⟨q, h1⟩, qs, h2⟩
          refine ⟨q :: qs, .cons ?_ h2⟩
          rw [(castDbl_iff _ _).2 h1]
  constructor
  · rintro ⟨c, hc⟩
    obtain ⟨h1, h2, h3, h4⟩ := load_ok.1 hc
    refine ⟨?_, ?_, ?_⟩
    · intro r hr
      obtain ⟨v, h5, -⟩ := env_of hc hr
      exact (hfine r).1 (get_fine h5)
    · intro hs
      rw [← hlog c.env h1, ← addSlash_ok]
      unfold logDirOf at h2
      rw [hs] at h2
      exact ⟨_, h2⟩
    · intro hp
      rw [← hdata hp c.env h1, ← addSlash_ok, ← hpd]
      unfold dataDirOf at h3
      unfold pdOf at h4
      rw [hp] at h3 h4
      exact ⟨⟨_, h3⟩, ⟨_, h4⟩⟩
  · rintro ⟨h1, h2, h3⟩
    rcases fold_total t (reads p) [] (fun _ => none) (valid_reads p) (fun o ho => by cases ho) with ⟨env, he, -⟩ | ⟨r, hr, hd, hbad⟩
    · have he' : readAll t (reads p) = .ok env := he
      have e2 : ∃ l, logDirOf p env = .ok l := by
        unfold logDirOf
        cases hs : slash p
        · exact ⟨_, rfl⟩
        · exact (addSlash_ok _).2 ((hlog env he').2 (h2 hs))
      have e3 : ∃ l, dataDirOf p env = .ok l := by
        unfold dataDirOf
        cases hs : park p
        · exact ⟨_, rfl⟩
        · exact (addSlash_ok _).2 ((hdata hs env he').2 (h3 hs).1)
      have e4 : ∃ l, pdOf p t = .ok l := by
        unfold pdOf
        cases hs : park p
        · exact ⟨_, rfl⟩
        · exact hpd.2 (h3 hs).2
      obtain ⟨l, e2⟩ := e2
      obtain ⟨d, e3⟩ := e3
      obtain ⟨q, e4⟩ := e4
      exact ⟨⟨env, l, d, q⟩, load_ok.2 ⟨he', e2, e3, e4⟩⟩
    · exfalso
      obtain ⟨s, v, h5, h6⟩ := (hfine r).2 (h1 r hr) hd
      rcases hbad with ⟨h7, -⟩ | ⟨s', h7, h8, -⟩
      · rw [h5] at h7; cases h7
      · rw [h5] at h7; cases h7
        rw [h6] at h8; cases h8

/-- C198 (partial): the programs accept the file that they open by default, except the amplitude program and the programs on the CityTrees data. -/
theorem C198_shipped_partial (p : Prog) (h1 : p ≠ .phdAmp) (h2 : p ≠ .lmbCity) : ∃ t c, shipped p = some t ∧ load p t = .ok c := by
  have key : ∀ t, shipped p = some t → (load p t).toOption.isSome = true → ∃ t c, shipped p = some t ∧ load p t = .ok c := by
    intro t ht hl
    cases h : load p t with
    | error e => rw [h] at hl; cases hl
    | ok c => exact ⟨t, c, ht, h⟩
  cases p
  case phdAmp => exact absurd rfl h1
  case lmbCity => exact absurd rfl h2
  all_goals exact key _ rfl (by decide +kernel)

/-- The amplitude program stops on its default file: the file has no `varzr`. The program on the CityTrees data has no default file in the repository. -/
theorem C198_shipped_violated :
    (∃ t, shipped .phdAmp = some t ∧ t.val "config.measurements.varzr" = none ∧ ∀ c, load .phdAmp t ≠ .ok c) ∧ shipped .lmbCity = none := by
  refine ⟨⟨_, rfl, by decide +kernel, ?_⟩, rfl⟩
  intro c hc
  have : (load .phdAmp cfg_rbphdslam2dSim).toOption.isSome = false := by decide +kernel
  rw [hc] at this
  cases this

/-! ## C199 -/

/-- C199 (partial): a mandatory option that is absent or not of its type stops the program with an error that names an option at fault. Missing: options with a default (`C199_replaced_violated`). -/
theorem C199_mandatory_partial (p : Prog) (t : Tree) (r : Rd) (hr : r ∈ reads p) (hd : r.dflt = .req)
    (hbad : ∀ s, t.val r.opt = some s → ¬ WellFormed r.ty s) :
    ∃ r' ∈ reads p, (∀ s, t.val r'.opt = some s → ¬ WellFormed r'.ty s) ∧ (load p t = .error (.badPath r'.opt) ∨ load p t = .error (.badData r'.opt)) := by
  have hl : ∀ x, readAll t (reads p) = .error x → load p t = .error x := by
    intro x hx
    unfold load
    rw [hx]
  rcases fold_total t (reads p) [] (fun _ => none) (valid_reads p) (fun o ho => by cases ho) with ⟨env, he, hf⟩ | ⟨r', hr', -, h⟩
  · obtain ⟨s, v, h1, h2⟩ := hf r hr hd
    exact absurd ⟨v, (conv_iff _ _ _).1 h2⟩ (hbad s h1)
  · refine ⟨r', hr', ?_, ?_⟩
    · rcases h with ⟨h1, -⟩ | ⟨s, h1, h2, -⟩
      · intro s hs; rw [h1] at hs; cases hs
      · intro s' hs'
        rw [h1] at hs'; cases hs'
        rintro ⟨v, hv⟩
        rw [← conv_iff, h2] at hv; cases hv
    · rcases h with ⟨-, h2⟩ | ⟨s, -, -, h2⟩
      · exact .inl (hl _ h2)
      · exact .inr (hl _ h2)

/-- What happens to an option with a default whose text is not of its type: the program goes on with the default, as if the option were absent. -/
theorem C199_replaced (t t' : Tree) (env : Env) (r : Rd) (hd : r.dflt ≠ .req) (s : Text) (hs : t.val r.opt = some s) (hbad : ¬ WellFormed r.ty s)
    (hs' : t'.val r.opt = none) : getOpt t env r = getOpt t' env r := by
  have hc : conv r.ty s = none := by
    cases h : conv r.ty s with
    | none => rfl
    | some v => exact absurd ⟨v, (conv_iff _ _ _).1 h⟩ hbad
  unfold getOpt
  simp only [hs, hc, hs']
  cases h : r.dflt with
  | req => exact absurd h hd
  | _ => rfl

/-- A file with another text for an option. -/
def with_ (t : Tree) (o : String) (s : Text) : Tree := ⟨(o, s) :: t.vals, t.pd⟩

/-- A thousand particles, written `1e3`: the program runs with 200 particles and says nothing. A birth weight `0,05` (decimal comma) becomes 0.01. -/
theorem C199_replaced_violated :
    ∃ c, load .phd2d (with_ (with_ cfg_rbphdslam2dSim "config.filter.nParticles" "1e3".toList) "config.filter.predict.birthGaussianWeight" "0,05".toList) = .ok c ∧
      c.env "config.filter.nParticles" = some (.num 200) ∧ c.env "config.filter.predict.birthGaussianWeight" = some (.num (1 / 100)) ∧
      Denotes .dbl "1e3".toList (.num 1000) ∧ ¬ WellFormed .int "1e3".toList ∧ ¬ WellFormed .dbl "0,05".toList := by
  have h : (load .phd2d (with_ (with_ cfg_rbphdslam2dSim "config.filter.nParticles" "1e3".toList) "config.filter.predict.birthGaussianWeight" "0,05".toList)).toOption.map
      (fun c => (c.env "config.filter.nParticles", c.env "config.filter.predict.birthGaussianWeight")) = some (some (.num 200), some (.num (1 / 100))) := by decide +kernel
  cases hl : load .phd2d (with_ (with_ cfg_rbphdslam2dSim "config.filter.nParticles" "1e3".toList) "config.filter.predict.birthGaussianWeight" "0,05".toList) with
  | error e => rw [hl] at h; cases h
  | ok c =>
    rw [hl] at h
    simp only [Except.toOption, Option.map_some, Option.some.injEq, Prod.mk.injEq] at h
    refine ⟨c, rfl, h.1, h.2, ⟨1000, (parseDbl_iff _ _).1 (by decide +kernel), rfl⟩, ?_, ?_⟩
    · rintro ⟨v, hv⟩
      rw [← conv_iff] at hv
      have : conv .int "1e3".toList = none := by decide +kernel
      rw [this] at hv; cases hv
    · rintro ⟨v, hv⟩
      rw [← conv_iff] at hv
      have : conv .dbl "0,05".toList = none := by decide +kernel
      rw [this] at hv; cases hv

/-- A file without a mandatory value is refused. -/
example : ∃ r' ∈ reads .phd2d, ∃ t : Tree, (∀ s, t.val r'.opt = some s → ¬ WellFormed r'.ty s) ∧ r'.dflt = .req := by
  have h : ∃ r ∈ reads .phd2d, r.dflt = .req := by decide
  obtain ⟨r, h1, h2⟩ := h
  exact ⟨r, h1, ⟨[], none⟩, fun s hs => (by cases hs), h2⟩

/-! ## C200 -/

/-- The variables with one of them changed. -/
def put (env : Env) (o : String) (v : Val) : Env := fun o' => if o' = o then some v else env o'

/-- Options that a program reads (and that must be in the file, for some of them) although they change nothing. -/
def ignored : Prog → List String
  | .phd2d | .phd6d => ["config.filter.update.KalmanFilter.innovationThreshold.range", "config.filter.update.KalmanFilter.innovationThreshold.bearing"]
  | .fastVP | .phdVP => ["config.filter.predict.processNoiseInflationFactor"]
  | .cbm2d => ["config.filter.weighting.nEvalPt", "config.filter.weighting.minPE", "config.filter.weighting.useClusterProcess"]
  | .ceres1d | .ceres2d => ["config.optimizer.iterations", "config.optimizer.ospaC"]
  | _ => []

theorem wired (p : Prog) (hp : p ≠ .lmbCity) : ∀ r ∈ reads p, r.opt ∉ ignored p →
    (∃ e ∈ wiring p, e.2 = [r.opt]) ∨ (r.ty = .dbl ∧ ∃ e ∈ wiring p, 2 ≤ e.2.length ∧ e.2.count r.opt = 1) := by
  cases p
  case lmbCity => exact absurd rfl hp
  all_goals decide +kernel

theorem slotVal_product (env : Env) (l : List String) (h : 2 ≤ l.length) : slotVal env l = .num (l.map (num env)).prod := by
  match l, h with
  | _ :: _ :: _, _ => rfl

/-- A product in which one factor is changed. -/
theorem prod_put (env : Env) (o : String) (q : ℚ) (l : List String) (hc : l.count o = 1) :
    (l.map (num (put env o (.num q)))).prod = q * ((l.erase o).map (num env)).prod := by
  have hm : o ∈ l := List.count_pos_iff.1 (by omega)
  have hperm := List.perm_cons_erase hm
  rw [(hperm.map (num (put env o (.num q)))).prod_eq, List.map_cons, List.prod_cons]
  have h1 : num (put env o (.num q)) o = q := by simp [num, put]
  rw [h1]
  congr 2
  refine List.map_congr_left fun o' ho' => ?_
  have hne : o' ≠ o := by
    rintro rfl
    have h2 : (l.erase o').count o' = 0 := by rw [List.count_erase_self, hc]
    exact absurd ho' (List.count_eq_zero.1 h2)
  simp [num, put, hne]

/-- C200 (partial): every option that a program reads, other than those listed in `ignored`, has an effect: two different values give different settings of the components, provided that the other factors of the
noise terms (variances, inflation factors, time step) are not zero. Missing: the options in `ignored` (`C200_ignored_violated`) and the program on the CityTrees data. -/
theorem C200_effective_partial (p : Prog) (hp : p ≠ .lmbCity) (r : Rd) (hr : r ∈ reads p) (hi : r.opt ∉ ignored p) (env : Env)
    (hnz : ∀ e ∈ wiring p, ∀ o ∈ e.2, o ≠ r.opt → 2 ≤ e.2.length → num env o ≠ 0) (v v' : Val) (hv : v ≠ v')
    (hty : r.ty = .dbl → ∃ q q', v = .num q ∧ v' = .num q') :
    settings p (put env r.opt v) ≠ settings p (put env r.opt v') := by
  intro h
  have h1 : ∀ e ∈ wiring p, slotVal (put env r.opt v) e.2 = slotVal (put env r.opt v') e.2 := by
    intro e he
    have := (List.map_inj_left.1 h) e he
    exact (Prod.mk.inj this).2
  rcases wired p hp r hr hi with ⟨e, he, h2⟩ | ⟨ht, e, he, h2, h3⟩
  · have := h1 e he
    rw [h2] at this
    simp only [slotVal, put, if_true, Option.getD_some] at this
    exact hv this
  · obtain ⟨q, q', rfl, rfl⟩ := hty ht
    have := h1 e he
    rw [slotVal_product _ _ h2, slotVal_product _ _ h2, prod_put _ _ _ _ h3, prod_put _ _ _ _ h3] at this
    have h4 : ((e.2.erase r.opt).map (num env)).prod ≠ 0 := by
      intro hz
      rw [List.prod_eq_zero_iff] at hz
      obtain ⟨o, ho, hz⟩ := List.mem_map.1 hz
      refine hnz e he o (List.mem_of_mem_erase ho) ?_ h2 hz
      rintro rfl
      have h5 : (e.2.erase r.opt).count r.opt = 0 := by rw [List.count_erase_self, h3]
      exact absurd ho (List.count_eq_zero.1 h5)
    have h6 : q = q' := mul_right_cancel₀ h4 (Val.num.inj this)
    exact hv (by rw [h6])

/-- The options in `ignored` are read and change nothing: whatever their value, all settings are the same. -/
theorem C200_ignored_violated (p : Prog) (o : String) (ho : o ∈ ignored p) (env : Env) (v v' : Val) :
    (∃ r ∈ reads p, r.opt = o) ∧ settings p (put env o v) = settings p (put env o v') := by
  have h1 : ∀ o ∈ ignored p, (∃ r ∈ reads p, r.opt = o) ∧ ∀ e ∈ wiring p, o ∉ e.2 := by
    cases p <;> decide +kernel
  refine ⟨(h1 o ho).1, ?_⟩
  refine List.map_congr_left fun e he => ?_
  have hne := (h1 o ho).2 e he
  have key : ∀ o' ∈ e.2, put env o v o' = put env o v' o' := by
    intro o' ho'
    have : o' ≠ o := by rintro rfl; exact hne ho'
    simp [put, this]
  congr 1
  unfold slotVal
  split
  · next o' h2 => rw [key o' (by rw [h2]; simp)]
  · congr 2
    refine List.map_congr_left fun o' ho' => ?_
    unfold num
    rw [key o' ho']

/-- For the Victoria Park programs, for instance, the inflation of the process noise; for the programs with a batch optimiser, the number of iterations. -/
example : "config.filter.predict.processNoiseInflationFactor" ∈ ignored .phdVP ∧ "config.optimizer.iterations" ∈ ignored .ceres2d := by decide

/-! ## C201 -/

/-- A file `name` in the directory `d`, with or without a slash at the end of `d`. -/
def InDir (d name path : Text) : Prop :=
  (∃ d', d = d' ++ ['/'] ∧ path = d ++ name) ∨ (d ≠ [] ∧ (∀ d', d ≠ d' ++ ['/']) ∧ path = d ++ '/' :: name)

/-- C201 (partial): the log files lie in the directory given by `logDirPrefix` (the working directory by default), for the programs that complete the directory with a slash whatever the directory, and for the
others if it ends with a slash. Missing: `C201_prefix_violated`, `C201_empty_violated`. -/
theorem C201_logs_partial (p : Prog) (t : Tree) (c : Cfg) (h : load p t = .ok c) (d : Text)
    (hd : TextIs t "config.logging.logDirPrefix" (some "./".toList) d) (hp : slash p = true ∨ ∃ d', d = d' ++ ['/']) (name : Text) :
    InDir d name (logFile c name) := by
  obtain ⟨h1, h2, -, -⟩ := load_ok.1 h
  obtain ⟨s, h3, h4⟩ := text_row h1 (log_row p) (some "./".toList) (.inr ⟨_, rfl, rfl⟩)
  have := textIs_unique hd h3
  subst this
  unfold logDirOf at h2
  rw [h4] at h2
  unfold logFile
  cases hs : slash p with
  | false =>
    rw [hs] at hp h2
    obtain ⟨d', hd'⟩ := hp.resolve_left (by decide)
    simp only [Except.ok.injEq] at h2
    exact .inl ⟨d', hd', by rw [← h2]⟩
  | true =>
    rw [hs] at h2
    simp only [addSlash] at h2
    cases hl : d.getLast? with
    | none => rw [hl] at h2; cases h2
    | some x =>
      rw [hl] at h2
      simp only [Except.ok.injEq] at h2
      obtain ⟨d', rfl⟩ : ∃ d', d = d' ++ [x] := by
        obtain ⟨hne, hx⟩ := List.getLast?_eq_some_iff.1 hl
        exact ⟨_, hx⟩
      by_cases hx : x = '/'
      · subst hx
        rw [if_pos rfl] at h2
        exact .inl ⟨d', rfl, by rw [h2]⟩
      · rw [if_neg hx] at h2
        refine .inr ⟨by simp, ?_, ?_⟩
        · intro d'' hd''
          exact hx (List.append_inj' hd'' rfl |>.2 |> List.cons.inj |>.1)
        · rw [← h2]; simp

/-- The other seven programs: with the directory `data/run1` the log files are `data/run1landmarkEst.dat` and the like, in `data`. -/
theorem C201_prefix_violated (p : Prog) (hp : slash p = false) :
    ∃ t c, t.val "config.logging.logDirPrefix" = some "data/run1".toList ∧ load p t = .ok c ∧
      logFile c "landmarkEst.dat".toList = "data/run1landmarkEst.dat".toList ∧
      ¬ InDir "data/run1".toList "landmarkEst.dat".toList (logFile c "landmarkEst.dat".toList) := by
  have hno : ¬ InDir "data/run1".toList "landmarkEst.dat".toList "data/run1landmarkEst.dat".toList := by
    rintro (⟨d', h1, -⟩ | ⟨-, -, h⟩)
    · have := congrArg List.getLast? h1
      rw [List.getLast?_append, List.getLast?_singleton, Option.some_or] at this
      exact absurd this (by decide)
    · revert h; decide
  have key : ∀ t, (load p (with_ t "config.logging.logDirPrefix" "data/run1".toList)).toOption.map (fun c => logFile c "landmarkEst.dat".toList) = some "data/run1landmarkEst.dat".toList →
      ∃ t c, t.val "config.logging.logDirPrefix" = some "data/run1".toList ∧ load p t = .ok c ∧
      logFile c "landmarkEst.dat".toList = "data/run1landmarkEst.dat".toList ∧
      ¬ InDir "data/run1".toList "landmarkEst.dat".toList (logFile c "landmarkEst.dat".toList) := by
    intro t h
    cases hl : load p (with_ t "config.logging.logDirPrefix" "data/run1".toList) with
    | error e => rw [hl] at h; cases h
    | ok c =>
      rw [hl] at h
      simp only [Except.toOption, Option.map_some, Option.some.injEq] at h
      exact ⟨_, c, by simp [with_, Tree.val], hl, h, by rw [h]; exact hno⟩
  cases p
  case cbm2d => exact key cfg_rbcbmemberslam2dSim (by decide +kernel)
  case lmb2d => exact key cfg_rblmbslam2dSim (by decide +kernel)
  case ceres1d => exact key cfg_rfsceresslam1dSim (by decide +kernel)
  case ceres2d => exact key cfg_rfsceresslam2dSim (by decide +kernel)
  case pso1d => exact key cfg_rfspsoslam1dSim (by decide +kernel)
  case psoOrb => exact key cfg_rfspsoslam1dSim (by decide +kernel)
  case pso2d => exact key cfg_rfspsoslam2dSim (by decide +kernel)
  all_goals exact absurd hp (by decide)

/-- An empty directory: the programs that complete it read the last character of an empty string. -/
theorem C201_empty_violated (p : Prog) (hp : slash p = true) (t : Tree) (env : Env) (h : readAll t (reads p) = .ok env)
    (ht : t.val "config.logging.logDirPrefix" = some []) : load p t = .error .emptyString := by
  obtain ⟨s, h3, h4⟩ := text_row h (log_row p) (some "./".toList) (.inr ⟨_, rfl, rfl⟩)
  have := textIs_unique (.inl ht) h3
  subst this
  unfold load
  simp only [h, logDirOf, hp, h4, addSlash, List.getLast?_nil]

/-- The shipped file of the 6-D simulator names a directory, and the program completes it. -/
example : ∃ c d, load .phd6d cfg_rbphdslam6dSim = .ok c ∧ cfg_rbphdslam6dSim.val "config.logging.logDirPrefix" = some d ∧ InDir d "landmarkEst.dat".toList (logFile c "landmarkEst.dat".toList) := by
  have h : (load .phd6d cfg_rbphdslam6dSim).toOption.isSome = true := by decide +kernel
  have hd : (cfg_rbphdslam6dSim.val "config.logging.logDirPrefix").isSome = true := by decide +kernel
  obtain ⟨d, hd⟩ := Option.isSome_iff_exists.1 hd
  cases hl : load .phd6d cfg_rbphdslam6dSim with
  | error e => rw [hl] at h; cases h
  | ok c => exact ⟨c, d, rfl, hd, C201_logs_partial .phd6d _ c hl d (Or.inl hd) (Or.inl rfl) _⟩

/-! ## C202 -/

/-- The numbers that a user has written as detection probabilities: the values, not the comments. -/
def PdList (l : List Child) (qs : List ℚ) : Prop := List.Forall₂ (fun x q => Padded PlainDec x.text q) (l.filter fun x => !x.comment) qs

/-- A text with one decimal number in it has one value. -/
theorem dec_unique {s : Text} {q q' : ℚ} (h : Padded PlainDec s q) (h' : Padded PlainDec s q') : q = q' := by
  rw [← parseDbl_iff] at h h'
  rw [h] at h'
  exact Option.some.inj h'

theorem plain_padded {s : Text} {q : ℚ} (h : PlainDec s q) : Padded PlainDec s q :=
  ⟨[], s, [], (by intro c hc; cases hc), (by intro c hc; cases hc), by simp, h⟩

/-- C202 (partial): the Victoria Park programs use the detection probabilities written in the file, in their order, if there are no comments among them. -/
theorem C202_pd_partial (p : Prog) (hp : park p = true) (t : Tree) (c : Cfg) (h : load p t = .ok c) (l : List Child) (hl : t.pd = some l)
    (hc : ∀ x ∈ l, x.comment = false) (qs : List ℚ) (hq : PdList l qs) : c.pd = qs := by
  obtain ⟨-, -, -, h4⟩ := load_ok.1 h
  unfold pdOf at h4
  rw [hp] at h4
  simp only [readPd, hl] at h4
  rw [mapM_ok_iff] at h4
  have hf : (l.filter fun x => !x.comment) = l := List.filter_eq_self.2 fun x hx => by simp [hc x hx]
  unfold PdList at hq
  rw [hf] at hq
  generalize c.pd = ps at h4
  clear hl h hc hf
  induction h4 generalizing qs with
  | nil => cases hq; rfl
  | @cons x q l' ps' h1 h2 ih =>
    cases hq with
    | @cons _ q' _ qs' h3 h5 =>
      have : castDbl x.text = some q := by
        cases hc : castDbl x.text with
        | none => rw [hc] at h1; cases h1
        | some u => rw [hc] at h1; cases h1; rfl
      rw [dec_unique (plain_padded ((castDbl_iff _ _).1 this)) h3, ih qs' h5]

/-- The shipped Victoria Park file meets the hypotheses: its probabilities are read as written. -/
example : ∃ c, load .phdVP cfg_rbphdslam_VictoriaPark = .ok c ∧ c.pd = [0, 1 / 20, 7 / 20, 19 / 25, 89 / 100, 9 / 10] := by
  have h : (load .phdVP cfg_rbphdslam_VictoriaPark).toOption.map (fun c => c.pd) = some [0, 1 / 20, 7 / 20, 19 / 25, 89 / 100, 9 / 10] := by decide +kernel
  cases hl : load .phdVP cfg_rbphdslam_VictoriaPark with
  | error e => rw [hl] at h; cases h
  | ok c =>
    rw [hl] at h
    exact ⟨c, rfl, Option.some.inj h⟩

/-- A commented-out probability is used as a probability, and a comment in words stops the program. A space beside a probability stops it too. -/
theorem C202_comment_violated :
    (∃ c, load .phdVP { cfg_rbphdslam_VictoriaPark with pd := some [⟨false, "0.00".toList⟩, ⟨true, "0.20".toList⟩, ⟨false, "0.90".toList⟩] } = .ok c ∧ c.pd = [0, 1 / 5, 9 / 10] ∧
      PdList [⟨false, "0.00".toList⟩, ⟨true, "0.20".toList⟩, ⟨false, "0.90".toList⟩] [0, 9 / 10]) ∧
    load .phdVP { cfg_rbphdslam_VictoriaPark with pd := some [⟨true, " near the sensor ".toList⟩, ⟨false, "0.90".toList⟩] } = .error .badCast ∧
    load .phdVP { cfg_rbphdslam_VictoriaPark with pd := some [⟨false, " 0.90 ".toList⟩] } = .error .badCast := by
  refine ⟨?_, ?_, ?_⟩
  · have h : (load .phdVP { cfg_rbphdslam_VictoriaPark with pd := some [⟨false, "0.00".toList⟩, ⟨true, "0.20".toList⟩, ⟨false, "0.90".toList⟩] }).toOption.map (fun c => c.pd) =
        some [0, 1 / 5, 9 / 10] := by decide +kernel
    cases hl : load .phdVP { cfg_rbphdslam_VictoriaPark with pd := some [⟨false, "0.00".toList⟩, ⟨true, "0.20".toList⟩, ⟨false, "0.90".toList⟩] } with
    | error e => rw [hl] at h; cases h
    | ok c =>
      rw [hl] at h
      refine ⟨c, rfl, Option.some.inj h, ?_⟩
      refine .cons ((parseDbl_iff _ _).1 (by decide +kernel)) (.cons ((parseDbl_iff _ _).1 (by decide +kernel)) .nil)
  all_goals
    have key : ∀ x : Except CErr Cfg, (match x with | .error .badCast => true | _ => false) = true → x = .error .badCast := by
      intro x hx
      match x, hx with
      | .error .badCast, _ => rfl
    exact key _ (by decide +kernel)

/-! ## C203 -/

/-- The names of the variances of the robot pose, in the order of the coordinates of its state. -/
def poseVars : Prog → List String
  | .phd2d | .fast2d | .cbm2d | .lmb2d | .phdAmp | .ceres2d | .pso2d => ["config.trajectory.vardx", "config.trajectory.vardy", "config.trajectory.vardz"]
  | .phd6d => ["config.trajectory.vardx", "config.trajectory.vardy", "config.trajectory.vardz", "config.trajectory.vardqx", "config.trajectory.vardqy", "config.trajectory.vardqz", "config.trajectory.vardqw"]
  | .ceres1d | .pso1d | .psoOrb => ["config.trajectory.vardx"]
  | .fastVP | .phdVP | .lmbCity => []

/-- The names of the variances of a landmark; the batch programs have no landmark process. -/
def lmVars : Prog → List String
  | .phd2d | .fast2d | .cbm2d | .lmb2d | .phdAmp => ["config.landmarks.varlmx", "config.landmarks.varlmy"]
  | .phd6d => ["config.landmarks.varlmx", "config.landmarks.varlmy", "config.landmarks.varlmz"]
  | _ => []

/-- The names of the variances of a measurement. -/
def measVars : Prog → List String
  | .phd2d => ["config.measurements.varzx", "config.measurements.varzy"]
  | .phd6d => ["config.measurements.varzx", "config.measurements.varzy", "config.measurements.varzz"]
  | .fast2d | .cbm2d | .lmb2d | .phdAmp | .ceres2d | .pso2d => ["config.measurements.varzr", "config.measurements.varzb"]
  | .fastVP | .phdVP => ["config.measurements.varzr", "config.measurements.varzb", "config.measurements.varzd"]
  | .ceres1d | .pso1d | .psoOrb => ["config.measurements.varzr"]
  | .lmbCity => []

/-- The two inflation factors are options of the filter or of the optimiser. -/
def part : Prog → String
  | .ceres1d | .ceres2d | .pso1d | .psoOrb | .pso2d => "optimizer"
  | _ => "filter"

theorem setting_of {p : Prog} {s : Slot} {l : List String} (h : (wiring p).filter (fun e => decide (e.1 = s)) = [(s, l)]) (hl : 2 ≤ l.length) (env : Env) (v : Val) :
    (s, v) ∈ settings p env ↔ v = .num (l.map (num env)).prod := by
  unfold settings
  simp only [List.mem_map, Prod.mk.injEq]
  rw [← slotVal_product env l hl]
  have hm : ∀ e, e ∈ wiring p ∧ e.1 = s ↔ e = (s, l) := by
    intro e
    have := congrArg (fun x => e ∈ x) h
    simp only [List.mem_filter, decide_eq_true_eq, List.mem_singleton, eq_iff_iff] at this
    exact this
  constructor
  · rintro ⟨e, he, h1, rfl⟩
    rw [(hm e).1 ⟨he, h1⟩]
  · rintro rfl
    obtain ⟨h1, -⟩ := (hm (s, l)).2 rfl
    exact ⟨_, h1, rfl, rfl⟩

/-- C203 (partial): the noise that a program sets for its models: on the diagonal of the process noise of the robot the variances of the file times the inflation factor times the square of the time step; of the
landmarks, the variances times the square of the time step; of the measurements, the variances times their inflation factor. Missing: the process noise of the Victoria Park programs (`C203_park_violated`). -/
theorem C203_noise_partial (p : Prog) (env : Env) (v : Val) :
    (∀ i o, (poseVars p)[i]? = some o → ((.Q i, v) ∈ settings p env ↔
      v = .num (num env o * num env ("config." ++ part p ++ ".predict.processNoiseInflationFactor") * num env "config.sec_per_timestep" ^ 2))) ∧
    (∀ i o, (lmVars p)[i]? = some o → ((.Qlm i, v) ∈ settings p env ↔ v = .num (num env o * num env "config.sec_per_timestep" ^ 2))) ∧
    (∀ i o, (measVars p)[i]? = some o → ((.R i, v) ∈ settings p env ↔
      v = .num (num env o * num env ("config." ++ part p ++ ".update.measurementNoiseInflationFactor")))) := by
  have hQ : ∀ ij ∈ (poseVars p).zipIdx, (wiring p).filter (fun e => decide (e.1 = Slot.Q ij.2)) =
      [(.Q ij.2, [ij.1, "config." ++ part p ++ ".predict.processNoiseInflationFactor", "config.sec_per_timestep", "config.sec_per_timestep"])] := by
    cases p <;> decide +kernel
  have hL : ∀ ij ∈ (lmVars p).zipIdx, (wiring p).filter (fun e => decide (e.1 = Slot.Qlm ij.2)) =
      [(.Qlm ij.2, [ij.1, "config.sec_per_timestep", "config.sec_per_timestep"])] := by
    cases p <;> decide +kernel
  have hR : ∀ ij ∈ (measVars p).zipIdx, (wiring p).filter (fun e => decide (e.1 = Slot.R ij.2)) =
      [(.R ij.2, [ij.1, "config." ++ part p ++ ".update.measurementNoiseInflationFactor"])] := by
    cases p <;> decide +kernel
  refine ⟨?_, ?_, ?_⟩
  · intro i o h
    rw [setting_of (hQ (o, i) (List.mem_zipIdx_iff_getElem?.2 h)) (by simp)]
    have : (List.map (num env) [o, "config." ++ part p ++ ".predict.processNoiseInflationFactor", "config.sec_per_timestep", "config.sec_per_timestep"]).prod =
        num env o * num env ("config." ++ part p ++ ".predict.processNoiseInflationFactor") * num env "config.sec_per_timestep" ^ 2 := by
      simp only [List.map_cons, List.map_nil, List.prod_cons, List.prod_nil]; ring
    rw [this]
  · intro i o h
    rw [setting_of (hL (o, i) (List.mem_zipIdx_iff_getElem?.2 h)) (by simp)]
    have : (List.map (num env) [o, "config.sec_per_timestep", "config.sec_per_timestep"]).prod = num env o * num env "config.sec_per_timestep" ^ 2 := by
      simp only [List.map_cons, List.map_nil, List.prod_cons, List.prod_nil]; ring
    rw [this]
  · intro i o h
    rw [setting_of (hR (o, i) (List.mem_zipIdx_iff_getElem?.2 h)) (by simp)]
    have : (List.map (num env) [o, "config." ++ part p ++ ".update.measurementNoiseInflationFactor"]).prod =
        num env o * num env ("config." ++ part p ++ ".update.measurementNoiseInflationFactor") := by
      simp only [List.map_cons, List.map_nil, List.prod_cons, List.prod_nil]; ring
    rw [this]

/-- The statement is about something: the bearing of the FastSLAM simulation. -/
example : (measVars .fast2d)[1]? = some "config.measurements.varzb" := rfl

/-- The Victoria Park programs read an inflation factor for the process noise, but nothing that they set depends on it. -/
theorem C203_park_violated (env : Env) (q q' : ℚ) :
    settings .fastVP (put env "config.filter.predict.processNoiseInflationFactor" (.num q)) = settings .fastVP (put env "config.filter.predict.processNoiseInflationFactor" (.num q')) ∧
    settings .phdVP (put env "config.filter.predict.processNoiseInflationFactor" (.num q)) = settings .phdVP (put env "config.filter.predict.processNoiseInflationFactor" (.num q')) :=
  ⟨(C200_ignored_violated .fastVP _ (by decide) env _ _).2, (C200_ignored_violated .phdVP _ (by decide) env _ _).2⟩

end RFS.ConfigProps
