import Verif.Model.MBThreads
import Mathlib.Tactic.Ring

/-!
Lemmas on the thread model of the updates of the CB-MeMBer and LMB filters.
-/

set_option linter.unusedSectionVars false

namespace RFS
namespace MBTProps
open MBF MBT

variable {X D Z B K F : Type*} [Field K] [LinearOrder K]
variable {o : Pieces X D Z B K F} {md : K} {Zs : List Z} {k : F} {as : List Act} {c0 : List (Cell X D B K)} {thr0 : K} {n : Nat}

/-- The steps of an iteration on its particle, by one thread. -/
def alone (o : Pieces X D Z B K F) (Zs : List Z) (k : F) (as : List Act) (c : Cell X D B K) : Except Err (Cell X D B K) := as.foldlM (act o Zs (some k)) c

theorem act_err {c : Cell X D B K} {a : Act} {e : Err} (h : act o Zs (some k) c a = .error e) : e = .map := by
  cases a <;> simp only [act] at h
  · cases h
  all_goals (repeat' split at h) <;> cases h <;> rfl

theorem alone_err {c : Cell X D B K} {e : Err} (h : alone o Zs k as c = .error e) : e = .map := by
  unfold alone at h
  induction as generalizing c with
  | nil => cases h
  | cons a as ih =>
    rw [List.foldlM_cons] at h
    cases h1 : act o Zs (some k) c a with
    | error e' =>
      rw [h1] at h
      cases h
      exact act_err h1
    | ok c' =>
      rw [h1] at h
      exact ih h

theorem alone_append {d r : List Act} {c c' : Cell X D B K} (h : alone o Zs k d c = .ok c') : alone o Zs k (d ++ r) c = alone o Zs k r c' := by
  unfold alone at *
  rw [List.foldlM_append, h]
  rfl

theorem alone_snoc {d : List Act} {a : Act} {c c' c'' : Cell X D B K} (h : alone o Zs k d c = .ok c') (h' : act o Zs (some k) c' a = .ok c'') : alone o Zs k (d ++ [a]) c = .ok c'' := by
  rw [alone_append h]
  unfold alone
  rw [List.foldlM_cons, h']
  rfl

/-- State in the middle of a loop. -/
structure Mid (o : Pieces X D Z B K F) (md : K) (Zs : List Z) (k : F) (as : List Act) (c0 : List (Cell X D B K)) (kf0 : List F) (thr0 : K) (M : Mem X D B K F) : Prop where
  kfs : M.kfs = kf0
  len : M.todo.length = c0.length
  lenC : M.cells.length = c0.length
  at_ : ∀ i (h : i < c0.length), ∃ d r c, M.todo[i]? = some r ∧ M.cells[i]? = some c ∧ d ++ r = as ∧ alone o Zs k d c0[i] = .ok c
  thr : (M.thr = md * md ∧ Act.begin ∈ as ∧ ∃ c ∈ c0, o.has c.p.st.m = true) ∨
    (M.thr = thr0 ∧ ∀ i (h : i < c0.length), ∀ d r, M.todo[i]? = some r → d ++ r = as → Act.begin ∈ d → o.has (c0[i].p.st.m) = false)

theorem mid_start (M : Mem X D B K F) : Mid o md Zs k as M.cells M.kfs M.thr { M with todo := M.cells.map fun _ => as } := by
  refine ⟨rfl, by simp, rfl, ?_, Or.inr ⟨rfl, ?_⟩⟩
  · intro i h
    exact ⟨[], as, M.cells[i], by simp [h], by simp [h], rfl, rfl⟩
  · intro i h d r hr hd hb
    have hr' : r = as := by
      rw [List.getElem?_map, List.getElem?_eq_getElem h] at hr
      exact (Option.some.inj hr).symm
    subst hr'
    have : d = [] := by
      have := congrArg List.length hd
      rw [List.length_append] at this
      exact List.length_eq_zero_iff.1 (by omega)
    subst this
    cases hb

/-- One step: the invariant is kept, or the iteration fails when one thread runs it, too. -/
theorem tick_mid {owner : Nat → Nat} {kf0 : List F} {M : Mem X D B K F} {i : Nat} (hb : ∀ d r, d ++ Act.begin :: r = as → d = []) (hi : i < c0.length) (ho : kf0[owner i]? = some k)
    (h : Mid o md Zs k as c0 kf0 thr0 M) :
    (∃ M', tick o md Zs owner M i = .ok M' ∧ Mid o md Zs k as c0 kf0 thr0 M' ∧ (∀ j, j ≠ i → M'.todo[j]? = M.todo[j]?) ∧ ∀ r, M.todo[i]? = some r → M'.todo[i]? = some r.tail) ∨
    (tick o md Zs owner M i = .error .map ∧ alone o Zs k as c0[i] = .error .map) := by
  obtain ⟨d, r, c, h1, h2, h3, h4⟩ := h.at_ i hi
  unfold tick
  rw [h1, h2]
  cases r with
  | nil =>
    left
    refine ⟨M, rfl, h, fun _ _ => rfl, ?_⟩
    intro r hr
    rw [← Option.some.inj hr, h1]
    rfl
  | cons a rest =>
    dsimp only
    rw [h.kfs, ho]
    cases h5 : act o Zs (some k) c a with
    | error e =>
      right
      obtain rfl := act_err h5
      refine ⟨rfl, ?_⟩
      rw [← h3, alone_append h4]
      unfold alone
      rw [List.foldlM_cons, h5]
      rfl
    | ok c' =>
      left
      have hiT : i < M.todo.length := by rw [h.len]; exact hi
      have hiC : i < M.cells.length := by rw [h.lenC]; exact hi
      refine ⟨_, rfl, ⟨rfl, by simp [h.len], by simp [h.lenC], ?_, ?_⟩, ?_, ?_⟩
      · intro j hj
        by_cases hji : j = i
        · subst hji
          refine ⟨d ++ [a], rest, c', by simp [hiT], by simp [hiC], by simpa using h3, alone_snoc h4 h5⟩
        · obtain ⟨d', r', cc, g1, g2, g3, g4⟩ := h.at_ j hj
          refine ⟨d', r', cc, ?_, ?_, g3, g4⟩
          · simpa [List.getElem?_set, Ne.symm hji] using g1
          · simpa [List.getElem?_set, Ne.symm hji] using g2
      · by_cases hc : a = .begin ∧ o.has c.p.st.m = true
        · left
          refine ⟨if_pos hc, ?_, ?_⟩
          · rw [← h3, hc.1]; simp
          · obtain ⟨rfl, hc2⟩ := hc
            have hd := hb d rest h3
            subst hd
            cases h4
            exact ⟨_, List.getElem_mem hi, hc2⟩
        · rcases h.thr with ⟨t1, t2, t3⟩ | ⟨t1, t2⟩
          · left
            exact ⟨by dsimp only; rw [if_neg hc]; exact t1, t2, t3⟩
          · right
            refine ⟨by dsimp only; rw [if_neg hc]; exact t1, ?_⟩
            intro j hj d' r' hr' hd' hmem
            by_cases hji : j = i
            · subst hji
              have : r' = rest := by
                have : (M.todo.set j rest)[j]? = some rest := by simp [hiT]
                rw [this] at hr'
                exact (Option.some.inj hr').symm
              subst this
              have hda : d' = d ++ [a] := by
                have : d' ++ r' = (d ++ [a]) ++ r' := by rw [hd', ← h3]; simp
                exact List.append_cancel_right this
              subst hda
              rcases List.mem_append.1 hmem with hm | hm
              · exact t2 j hj d (a :: r') h1 h3 hm
              · have ha : a = .begin := (List.mem_singleton.1 hm).symm
                subst ha
                have hd := hb d r' h3
                subst hd
                cases h4
                exact Bool.eq_false_iff.2 fun hh => hc ⟨rfl, hh⟩
            · refine t2 j hj d' r' ?_ hd' hmem
              have hr'' : (M.todo.set i rest)[j]? = some r' := hr'
              rw [List.getElem?_set_ne (Ne.symm hji)] at hr''
              exact hr''
      · intro j hj
        exact List.getElem?_set_ne (Ne.symm hj)
      · intro r hr
        rw [← Option.some.inj hr]
        simp [hiT]

/-- A schedule: it keeps the invariant and shortens the iterations, or some iteration fails. -/
theorem run_mid {owner : Nat → Nat} {kf0 : List F} (hb : ∀ d r, d ++ Act.begin :: r = as → d = []) {σ : List Nat} (hσ : ∀ i ∈ σ, i < c0.length) (ho : ∀ i < c0.length, kf0[owner i]? = some k)
    {M : Mem X D B K F} (h : Mid o md Zs k as c0 kf0 thr0 M) :
    (∃ M', run o md Zs owner σ M = .ok M' ∧ Mid o md Zs k as c0 kf0 thr0 M' ∧ ∀ (i : Nat) (r : List Act), M.todo[i]? = some r → M'.todo[i]? = some (r.drop (σ.count i))) ∨
    (run o md Zs owner σ M = .error .map ∧ ∃ i, ∃ h : i < c0.length, alone o Zs k as c0[i] = .error .map) := by
  unfold run
  induction σ generalizing M with
  | nil =>
    left
    exact ⟨M, rfl, h, fun i r hr => by simpa using hr⟩
  | cons j σ ih =>
    have hj := hσ j List.mem_cons_self
    rw [List.foldlM_cons]
    rcases tick_mid hb hj (ho j hj) h with ⟨M', e1, h', hne, heq⟩ | ⟨e1, e2⟩
    · rw [e1]
      rcases ih (fun i hi => hσ i (List.mem_cons_of_mem _ hi)) h' with ⟨M'', e2, h'', h3⟩ | ⟨e2, i, hi, h3⟩
      · left
        refine ⟨M'', e2, h'', ?_⟩
        intro i r hr
        by_cases hij : i = j
        · subst hij
          rw [h3 i _ (heq r hr), List.count_cons_self]
          congr 1
          rw [← List.drop_one, List.drop_drop]
          congr 1
          omega
        · rw [List.count_cons_of_ne (fun h => hij h.symm)]
          exact h3 i r (by rw [hne i hij]; exact hr)
      · right
        exact ⟨e2, i, hi, h3⟩
    · right
      rw [e1]
      exact ⟨rfl, j, hj, e2⟩

theorem mapM_cells_ok {cs : List (Cell X D B K)} {g : Cell X D B K → Except Err (Cell X D B K)} : ∀ {l : List (Cell X D B K)}, l.length = cs.length →
    (∀ i (h : i < l.length), ∃ c, cs[i]? = some c ∧ g l[i] = .ok c) → l.mapM g = .ok cs := by
  induction cs with
  | nil =>
    intro l hl _
    rw [List.length_eq_zero_iff.1 hl]
    rfl
  | cons c cs ih =>
    intro l hl h
    cases l with
    | nil => cases hl
    | cons a l =>
      obtain ⟨c', e1, e2⟩ := h 0 (by simp)
      cases e1
      have e2' : g a = .ok c := e2
      have e3 := ih (l := l) (by simpa using hl) (fun i hi => by
        obtain ⟨c', e1, e2⟩ := h (i + 1) (by simpa using hi)
        exact ⟨c', by simpa using e1, by simpa using e2⟩)
      rw [List.mapM_cons, e2', e3]
      rfl

theorem mapM_cells_err {g : Cell X D B K → Except Err (Cell X D B K)} (hg : ∀ c e, g c = .error e → e = .map) : ∀ {l : List (Cell X D B K)}, (∃ i, ∃ h : i < l.length, g l[i] = .error .map) →
    l.mapM g = .error .map := by
  intro l
  induction l with
  | nil => rintro ⟨i, h, _⟩; cases h
  | cons a l ih =>
    rintro ⟨i, h, e⟩
    rw [List.mapM_cons]
    cases ha : g a with
    | error e' =>
      rw [hg a e' ha]
      rfl
    | ok c =>
      cases i with
      | zero =>
        have e' : g a = .error .map := e
        rw [ha] at e'
        cases e'
      | succ i =>
        rw [ih ⟨i, by simpa using h, by simpa using e⟩]
        rfl

/-- The threshold after a loop. -/
def thrAfter (o : Pieces X D Z B K F) (md : K) (as : List Act) (c0 : List (Cell X D B K)) (thr0 : K) : K :=
  if Act.begin ∈ as ∧ ∃ c ∈ c0, o.has c.p.st.m = true then md * md else thr0

/-- A whole loop, whatever the schedule. -/
theorem loop_eq {σ : Sched} {M : Mem X D B K F} (hb : ∀ d r, d ++ Act.begin :: r = as → d = []) (hσ : ∀ i ∈ σ.steps, i < M.cells.length) (hc : ∀ i < M.cells.length, as.length ≤ σ.steps.count i)
    (ho : ∀ i < M.cells.length, M.kfs[σ.owner i]? = some k) :
    (∃ cs, M.cells.mapM (alone o Zs k as) = .ok cs ∧ cs.length = M.cells.length ∧
      ∃ t, loop o md Zs as σ M = .ok (some ⟨cs, t, M.kfs, thrAfter o md as M.cells M.thr⟩)) ∨
    (M.cells.mapM (alone o Zs k as) = .error .map ∧ loop o md Zs as σ M = .error .map) := by
  unfold loop
  rcases run_mid (o := o) (md := md) (Zs := Zs) hb hσ ho (mid_start M) with ⟨M', e, h, hd⟩ | ⟨e, h⟩
  · left
    rw [e]
    have hz : ∀ i, i < M.cells.length → M'.todo[i]? = some [] := by
      intro i hi
      rw [hd i as (by simp [hi]), List.drop_eq_nil_of_le (hc i hi)]
    have hz' : ∀ l ∈ M'.todo, l = [] := by
      intro l hl
      obtain ⟨i, hi, rfl⟩ := List.getElem_of_mem hl
      have := hz i (by rw [← h.len]; exact hi)
      rw [List.getElem?_eq_getElem hi] at this
      exact Option.some.inj this
    refine ⟨M'.cells, ?_, h.lenC, M'.todo, ?_⟩
    · refine mapM_cells_ok h.lenC.symm ?_
      intro i hi
      obtain ⟨d, r, c, h1, h2, h3, h4⟩ := h.at_ i hi
      rw [hz i hi] at h1
      cases h1
      rw [List.append_nil] at h3
      subst h3
      exact ⟨c, h2, h4⟩
    · dsimp only
      rw [if_pos hz']
      congr 2
      have hthr : M'.thr = thrAfter o md as M.cells M.thr := by
        unfold thrAfter
        rcases h.thr with ⟨t1, t2, t3⟩ | ⟨t1, t2⟩
        · rw [if_pos ⟨t2, t3⟩, t1]
        · rw [if_neg, t1]
          rintro ⟨hb', c, hcm, hh⟩
          obtain ⟨i, hi, rfl⟩ := List.getElem_of_mem hcm
          have := t2 i hi as [] (hz i hi) (by simp) hb'
          rw [hh] at this
          cases this
      have hk := h.kfs
      cases M'
      simp only at hthr hk
      subst hthr hk
      rfl
  · right
    rw [e]
    exact ⟨mapM_cells_err (fun c e he => alone_err he) h, rfl⟩

theorem mapM_err {g : Cell X D B K → Except Err (Cell X D B K)} (hg : ∀ c e, g c = .error e → e = .map) : ∀ {l : List (Cell X D B K)} {e : Err}, l.mapM g = .error e → e = .map := by
  intro l
  induction l with
  | nil => intro e h; cases h
  | cons x l ih =>
    intro e hl
    rw [List.mapM_cons] at hl
    cases hx : g x with
    | error e' => rw [hx] at hl; cases hl; exact hg _ _ hx
    | ok y =>
      rw [hx] at hl
      cases hl' : l.mapM g with
      | error e' => rw [hl'] at hl; cases hl; exact ih hl'
      | ok z => rw [hl'] at hl; cases hl

theorem mapM_comp {g1 g2 : Cell X D B K → Except Err (Cell X D B K)} (h1 : ∀ c e, g1 c = .error e → e = .map) (h2 : ∀ c e, g2 c = .error e → e = .map) (l : List (Cell X D B K)) :
    (l.mapM g1).bind (fun l' => l'.mapM g2) = l.mapM fun c => (g1 c).bind g2 := by
  induction l with
  | nil => rfl
  | cons a l ih =>
    rw [List.mapM_cons, List.mapM_cons, ← ih]
    cases ha : g1 a with
    | error e => rfl
    | ok b =>
      cases hl : l.mapM g1 with
      | error e =>
        obtain rfl := mapM_err h1 hl
        cases hb : g2 b with
        | error e =>
          obtain rfl := h2 _ _ hb
          simp [Except.bind, bind, hb]
        | ok c => simp [Except.bind, bind, hb]
      | ok l' =>
        simp only [Except.bind, bind, pure, Except.pure, List.mapM_cons]

/-- The three loops on one particle. -/
def three (o : Pieces X D Z B K F) (Zs : List Z) (k : F) (c : Cell X D B K) : Except Err (Cell X D B K) :=
  ((alone o Zs k [.begin, .work] c).bind (alone o Zs k [.merge])).bind (alone o Zs k [.pruneT, .pruneG])

/-- A particle after the sequential update. -/
def seqCell (o : Pieces X D Z B K F) (Zs : List Z) (k : F) (p : PF.Part (PState X D) K) : Option (Bool × PF.Part (PState X D) K × List B) :=
  ((o.ops k).upd p.st.x Zs p.st.m).map fun r => (r.1, { p with st := ⟨p.st.x, r.2.1⟩, w := (o.ops k).lik p.st.x Zs p.st.m * p.w }, r.2.2)

theorem alone2 {a b : Act} {c : Cell X D B K} : alone o Zs k [a, b] c = (act o Zs (some k) c a).bind fun c' => act o Zs (some k) c' b := by
  unfold alone
  rw [List.foldlM_cons]
  cases act o Zs (some k) c a with
  | error e => rfl
  | ok c' =>
    change List.foldlM (act o Zs (some k)) c' [b] = act o Zs (some k) c' b
    rw [List.foldlM_cons]
    cases act o Zs (some k) c' b <;> rfl

theorem alone1 {a : Act} {c : Cell X D B K} : alone o Zs k [a] c = act o Zs (some k) c a := by
  unfold alone
  rw [List.foldlM_cons]
  cases act o Zs (some k) c a <;> rfl

theorem three_eq (o : Pieces X D Z B K F) (Zs : List Z) (k : F) (c : Cell X D B K) (hub : c.ub = false) :
    three o Zs k c = match seqCell o Zs k c.p with
      | none => .error .map
      | some u => .ok ⟨u.2.1, u.2.2, u.1⟩ := by
  obtain ⟨⟨⟨x, m⟩, id, pid, w⟩, u, ub⟩ := c
  subst hub
  unfold three seqCell
  rw [alone2]
  simp only [Pieces.ops, act, Except.bind, Bool.false_or]
  cases hh : o.has m with
  | false =>
    simp only [Bool.false_eq_true, if_false, Option.bind_some, one_mul, alone1, alone2, act, Except.bind]
    cases h1 : o.merge m with
    | none => rfl
    | some m1 =>
      simp only [Option.bind_some]
      cases h2 : o.prT x Zs m1 with
      | none => rfl
      | some q =>
        simp only [Option.bind_some]
        cases h3 : o.prG q.2 with
        | none => rfl
        | some m2 => rfl
  | true =>
    simp only [if_true]
    cases h0 : o.map k x Zs m with
    | none => rfl
    | some r =>
      simp only [Option.bind_some, alone1, alone2, act, Except.bind]
      cases h1 : o.merge r.2.1 with
      | none => rfl
      | some m1 =>
        simp only [Option.bind_some]
        cases h2 : o.prT x Zs m1 with
        | none => rfl
        | some q =>
          simp only [Option.bind_some]
          cases h3 : o.prG q.2 with
          | none => rfl
          | some m2 => rfl

theorem three_all (o : Pieces X D Z B K F) (Zs : List Z) (k : F) : ∀ (cs : List (Cell X D B K)), (∀ c ∈ cs, c.ub = false) →
    cs.mapM (three o Zs k) = match updAll (o.ops k) Zs (cs.map Cell.p) with
      | none => .error .map
      | some us => .ok (us.map fun u => ⟨u.2.1, u.2.2, u.1⟩) := by
  intro cs
  induction cs with
  | nil => intro _; rfl
  | cons c cs ih =>
    intro h
    have ih' := ih fun c hc => h c (List.mem_cons_of_mem _ hc)
    rw [List.mapM_cons, three_eq o Zs k c (h c List.mem_cons_self), ih']
    have e : updAll (o.ops k) Zs ((c :: cs).map Cell.p) = (seqCell o Zs k c.p).bind fun u => (updAll (o.ops k) Zs (cs.map Cell.p)).map fun us => u :: us := by
      unfold updAll
      rw [List.map_cons, List.mapM_cons]
      change (seqCell o Zs k c.p).bind _ = _
      cases seqCell o Zs k c.p with
      | none => rfl
      | some u =>
        simp only [Option.bind_some]
        change Option.bind (updAll (o.ops k) Zs (cs.map Cell.p)) _ = Option.map _ (updAll (o.ops k) Zs (cs.map Cell.p))
        cases updAll (o.ops k) Zs (cs.map Cell.p) <;> rfl
    rw [e]
    cases seqCell o Zs k c.p with
    | none => rfl
    | some u =>
      cases updAll (o.ops k) Zs (cs.map Cell.p) with
      | none => rfl
      | some us => rfl

theorem cellsOf_p (f : Filt X D Z B K) (h : ¬ f.unused.length < f.parts.length) : (cellsOf f).map Cell.p = f.parts := by
  unfold cellsOf
  rw [List.map_zipWith]
  apply List.ext_getElem
  · simp; omega
  · intro i h1 h2
    simp

theorem cellsOf_ub (f : Filt X D Z B K) : ∀ c ∈ cellsOf f, c.ub = false := by
  intro c hc
  unfold cellsOf at hc
  obtain ⟨i, hi, rfl⟩ := List.getElem_of_mem hc
  simp

theorem cellsOf_len (f : Filt X D Z B K) (h : ¬ f.unused.length < f.parts.length) : (cellsOf f).length = f.parts.length := by
  have := congrArg List.length (cellsOf_p f h)
  simpa using this

theorem shareKf_get {kfs : List F} {k : F} (h : kfs[0]? = some k) {j : Nat} (hj : j < kfs.length) : (shareKf kfs)[j]? = some k := by
  cases kfs with
  | nil => cases h
  | cons a l =>
    cases h
    have hj' : j < l.length + 1 := hj
    simp only [shareKf, List.getElem?_map]
    rw [List.getElem?_eq_getElem hj]
    rfl

theorem begin_first1 : ∀ d r, d ++ Act.begin :: r = [Act.begin, Act.work] → d = [] := by
  intro d r h
  cases d with
  | nil => rfl
  | cons a d =>
    injection h with h1 h2
    cases d with
    | nil => injection h2 with h3; cases h3
    | cons b d =>
      injection h2 with h3 h4
      cases d <;> cases h4

theorem begin_none {as : List Act} (h : Act.begin ∉ as) : ∀ d r, d ++ Act.begin :: r = as → d = [] := by
  intro d r e
  exact absurd (by rw [← e]; simp) h

/-- A schedule of a loop with `len` steps per particle, `N` particles and `T` threads: every iteration belongs to one of the threads and is run to its end. -/
structure Full (T N len : Nat) (σ : Sched) : Prop where
  range : ∀ i ∈ σ.steps, i < N
  enough : ∀ i < N, len ≤ σ.steps.count i
  owner : ∀ i < N, σ.owner i < T

/-- All loops. -/
theorem loops_eq {σ1 σ2 σ3 : Sched} {M : Mem X D B K F} {T : Nat} (hk : ∀ j < T, M.kfs[j]? = some k) (h1 : Full T M.cells.length 2 σ1) (h2 : Full T M.cells.length 1 σ2) (h3 : Full T M.cells.length 2 σ3) :
    (∃ cs, M.cells.mapM (three o Zs k) = .ok cs ∧ cs.length = M.cells.length ∧
      ∃ t, loops o md Zs σ1 σ2 σ3 M = .ok (some ⟨cs, t, M.kfs, if ∃ c ∈ M.cells, o.has c.p.st.m = true then md * md else M.thr⟩)) ∨
    (M.cells.mapM (three o Zs k) = .error .map ∧ loops o md Zs σ1 σ2 σ3 M = .error .map) := by
  have e3 : M.cells.mapM (three o Zs k) = ((M.cells.mapM (alone o Zs k [.begin, .work])).bind fun l => l.mapM (alone o Zs k [.merge])).bind fun l => l.mapM (alone o Zs k [.pruneT, .pruneG]) := by
    rw [mapM_comp (fun c e => alone_err) (fun c e => alone_err), mapM_comp _ (fun c e => alone_err)]
    · rfl
    · intro c e h
      cases hc : alone o Zs k [.begin, .work] c with
      | error e' => rw [hc] at h; cases h; exact alone_err hc
      | ok c' => rw [hc] at h; exact alone_err h
  rw [e3]
  unfold loops
  rcases loop_eq (o := o) (md := md) (Zs := Zs) (k := k) begin_first1 h1.range h1.enough (fun i hi => hk _ (h1.owner i hi)) with ⟨cs, a1, a2, t, a3⟩ | ⟨a1, a2⟩
  · rw [a1, a3]
    dsimp only [andThen, Except.bind]
    rcases loop_eq (o := o) (md := md) (Zs := Zs) (k := k) (as := [.merge]) (σ := σ2) (M := ⟨cs, t, M.kfs, thrAfter o md [.begin, .work] M.cells M.thr⟩) (begin_none (by decide))
      (fun i hi => by rw [a2]; exact h2.range i hi) (fun i hi => h2.enough i (by rw [← a2]; exact hi)) (fun i hi => hk _ (h2.owner i (by rw [← a2]; exact hi))) with ⟨cs', b1, b2, t', b3⟩ | ⟨b1, b2⟩
    · dsimp only at b1 b2 b3
      rw [b1, b3]
      dsimp only
      rcases loop_eq (o := o) (md := md) (Zs := Zs) (k := k) (as := [.pruneT, .pruneG]) (σ := σ3) (M := ⟨cs', t', M.kfs, thrAfter o md [.merge] cs (thrAfter o md [.begin, .work] M.cells M.thr)⟩)
        (begin_none (by decide)) (fun i hi => by rw [b2, a2]; exact h3.range i hi) (fun i hi => h3.enough i (by rw [← a2, ← b2]; exact hi))
        (fun i hi => hk _ (h3.owner i (by rw [← a2, ← b2]; exact hi))) with ⟨cs'', c1, c2, t'', c3⟩ | ⟨c1, c2⟩
      · left
        dsimp only at c1 c2 c3
        refine ⟨cs'', c1, by rw [c2, b2, a2], t'', ?_⟩
        rw [c3]
        have hthr : thrAfter o md [.pruneT, .pruneG] cs' (thrAfter o md [.merge] cs (thrAfter o md [.begin, .work] M.cells M.thr)) = if ∃ c ∈ M.cells, o.has c.p.st.m = true then md * md else M.thr := by
          have q1 : Act.begin ∉ [Act.pruneT, Act.pruneG] := by decide
          have q2 : Act.begin ∉ [Act.merge] := by decide
          have q3 : Act.begin ∈ [Act.begin, Act.work] := by decide
          unfold thrAfter
          simp only [q1, q2, q3, false_and, if_false, true_and]
        rw [hthr]
      · right
        exact ⟨c1, c2⟩
    · right
      dsimp only at b1 b2
      rw [b1, b2]
      exact ⟨rfl, rfl⟩
  · right
    rw [a1, a2]
    exact ⟨rfl, rfl⟩

end MBTProps
end RFS
