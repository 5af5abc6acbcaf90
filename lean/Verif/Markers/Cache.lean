import Verif.Common.GoMap
/-!
# markers/collect.go: the cache of the collector

Requests run in goroutines, in any order.  A syntax tree that is parsed again is a new one: its nodes are other pointers.  A syntax tree is given by its identity and what is in it; markers are given by the identity of the tree whose nodes are the keys, and the values.
-/
namespace Verif.Markers.Cache
open Verif

/-- What the result depends on. -/
structure Input (Pkg Files Vals Err : Type) where
  /-- reading and parsing the files of a package; none: a file cannot be read, or has a syntax error (loader.go:103-131) -/
  read : Pkg → Option Files
  /-- no files -/
  noFiles : Files
  /-- `associatePkgMarkers` and `parseMarkersInPackage` (collect.go:99-143): `Collect.lean`.  The registry is fixed. -/
  collect : Files → Except Err Vals

/-- How far a call of `MarkersInPackage` is (collect.go:75-96, loader.go:103-131). -/
inductive Stage (Files Vals Err : Type)
  /-- before the first lock (collect.go:76) -/
  | start
  /-- not in the cache; before `p.Syntax` is read (loader.go:104) -/
  | need
  /-- `p.Syntax` is nil: before the files are parsed (loader.go:107-130) -/
  | parse
  /-- parsed: before `p.Syntax` is written (loader.go:131) -/
  | parsed (syn : Nat × Files)
  /-- before the markers are collected (collect.go:86) -/
  | collect
  /-- before the second lock (collect.go:92) -/
  | store (markers : Nat × Vals)
  | done (result : Except Err (Nat × Vals))

/-- The state of all packages, of the collector, and of the calls. -/
structure State (Pkg Files Vals Err : Type) where
  /-- `Package.Syntax` -/
  «syntax» : List (Pkg × (Nat × Files)) := []
  /-- `Collector.byPackage` -/
  cache : List (Pkg × (Nat × Vals)) := []
  /-- the identity of the next syntax tree; `0` is none -/
  next : Nat := 1
  calls : List (Pkg × Stage Files Vals Err)

variable {Pkg Files Vals Err : Type} [DecidableEq Pkg] (I : Input Pkg Files Vals Err)

/-- The next step of a call for package `p` (collect.go:75-96). -/
def State.stage (s : State Pkg Files Vals Err) (p : Pkg) : Stage Files Vals Err → State Pkg Files Vals Err × Stage Files Vals Err
  | .start =>
    match GoMap.get s.cache p with
    | some m => (s, .done (.ok m))
    | none => (s, .need)
  | .need =>
    match GoMap.get s.syntax p with
    | some _ => (s, .collect)
    | none => (s, .parse)
  | .parse =>
    match I.read p with
    | some f => ({ s with next := s.next + 1 }, .parsed (s.next, f))
    | none => (s, .collect)
  | .parsed syn => ({ s with «syntax» := GoMap.put s.syntax p syn }, .collect)
  | .collect =>
    let (id, files) := (GoMap.get s.syntax p).getD (0, I.noFiles)
    match I.collect files with
    | .ok v => (s, .store (id, v))
    | .error e => (s, .done (.error e))
  | .store m => ({ s with cache := GoMap.put s.cache p m }, .done (.ok m))
  | .done r => (s, .done r)

/-- A step of call `i`. -/
def State.step (s : State Pkg Files Vals Err) (i : Nat) : State Pkg Files Vals Err :=
  match s.calls[i]? with
  | none => s
  | some (p, st) =>
    let (s', st') := s.stage I p st
    { s' with calls := s'.calls.set i (p, st') }

/-- A run, for an order of steps. -/
def State.run (s : State Pkg Files Vals Err) : List Nat → State Pkg Files Vals Err
  | [] => s
  | i :: is => (s.step I i).run is

/-- One call after the other. -/
def serial (n : Nat) : List Nat := (List.range n).flatMap fun i => List.replicate 6 i

end Verif.Markers.Cache
