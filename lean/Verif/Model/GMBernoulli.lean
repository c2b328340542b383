import Verif.Model.GaussianMixture

/-!
Model of `rfs::GMBernoulliComponent` and `rfs::GMMultiBernoulli` (include/GMBernoulliComponent.hpp 49-295): tracks with an existence
probability and a Gaussian mixture.

Simplifications: those of `Verif.Model.GaussianMixture`; a copy of a mixture onto itself (which reads freed memory, see
`GMHeapProps.C26_self_copy_violated`) is recorded in a flag and gives an arbitrary mixture.
-/

namespace RFS
namespace GMB
open GM

/-- A track: `GMBernoulliComponent`, lines 49-105. -/
structure Track (K : Type*) (d : Nat) where
  P : K
  prevP : K
  gm : GMix K d

variable {K : Type*} [Field K] [LinearOrder K] {d : Nat}

/-- Default constructor, lines 108-112. -/
def defaultTrack : Track K d := ⟨0, 0, empty⟩

/-- State of the loop of `pruneTracks`: number pruned, tracks, whether freed memory was read. -/
structure PSt (K : Type*) (d : Nat) where
  pruned : Nat
  tracks : List (Track K d)
  ub : Bool

/-- `tracks_[j].copyTo(&tracks_[i])`, lines 124-128: with `j = i` the mixture is deleted before it is read; `garb` is what results. -/
def copyTrack (garb : GMix K d) (s : PSt K d) (j i : Nat) : Option (PSt K d) :=
  match s.tracks[j]? with
  | none => none
  | some tj =>
    if j = i then
      some { s with tracks := s.tracks.set i { tj with gm := garb }, ub := s.ub || tj.gm.g.any fun e => e.lm.isSome }
    else some { s with tracks := s.tracks.set i tj }

/-- One pass of the loop of `pruneTracks`, lines 283-288, at index `i`. -/
def pruneStep (garb : Nat → GMix K d) (t : K) (s : PSt K d) (i : Nat) : Option (PSt K d) :=
  match s.tracks[i]? with
  | none => none
  | some ti =>
    if ti.P < t then
      (copyTrack (garb i) s (s.tracks.length - 1 - s.pruned) i).map fun s' => { s' with pruned := s'.pruned + 1 }
    else some s

/-- `pruneTracks`, lines 280-291; `garb` gives what the copies onto themselves leave behind. The result carries the flag. -/
def pruneTracks (garb : Nat → GMix K d) (t : K) (tracks : List (Track K d)) : Option (Bool × List (Track K d)) :=
  match (List.range tracks.length).reverse.foldlM (pruneStep garb t) ⟨0, tracks, false⟩ with
  | none => none
  | some s => some (s.ub, s.tracks.take (s.tracks.length - s.pruned))

/-- The loop of `getMaxGaussian`, lines 157-164: the largest weight so far and its index. -/
def maxStep (m : GMix K d) (s : K × Nat) (i : Nat) : Option (K × Nat) :=
  match m.g[i]? with
  | none => none
  | some e => if e.lm.isSome ∧ s.1 < e.w then some (e.w, i) else some s

/-- `getMaxGaussian`, lines 155-168: `none` outside the container, otherwise the landmark pointer that is returned. -/
def getMaxGaussian (m : GMix K d) : Option (Option (Lm K d)) :=
  match (List.range m.n.toNat).foldlM (maxStep m) (0, 0) with
  | none => none
  | some s => (m.g[s.2]?).map Gauss.lm

/-- `pruneGM`, lines 267-273. -/
def pruneGM (srt : List (Gauss K d) → List (Gauss K d)) (t : K) (tracks : List (Track K d)) : Option (List (Track K d)) :=
  tracks.mapM fun tr => (prune srt t tr.gm).map fun r => { tr with gm := r.2 }

/-- `mergeGM`, lines 274-279. -/
def mergeGM (maha : Lm K d → Lm K d → K) (t f : K) (tracks : List (Track K d)) : Option (List (Track K d)) :=
  tracks.mapM fun tr => (merge maha t f tr.gm).map fun r => { tr with gm := r.2 }

end GMB
end RFS
