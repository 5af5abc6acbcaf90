/-!
# loader/refs.go: type checking in parallel

A transition system: each goroutine is a thread with a place in the code, and any thread that is not blocked may take the next step.
Simplified: the sections between `c.Lock` and `c.Unlock` (refs.go:246-248, 269-271) have no blocking operation in them and are single steps; so is the call of `allReferencedPackages`,
which looks at the package that is locked and at names of packages only.  What the type checker (library) does apart from calls of the importer is left out.
-/
namespace Verif.Loader

/-- The packages, by numbers. -/
abbrev Pkg := Nat

/-- The import graph. -/
structure Graph where
  /-- the packages that the type checker asks the importer for, in the order in which it does (loader.go:240-268) -/
  imports : Pkg → List Pkg
  /-- `allReferencedPackages` (refs.go:149-186), in the order of the iteration over a map -/
  refs : Pkg → List Pkg

/-- A place in `check` (refs.go:242-272). -/
inductive PC
  /-- at `root.Lock()` (refs.go:243) -/
  | lock
  /-- at the test whether the package is checked (refs.go:246-251), after which `allReferencedPackages` is called (refs.go:253) -/
  | look
  /-- in the loop that starts goroutines (refs.go:256-263); the packages that are left -/
  | spawn (rest : List Pkg)
  /-- at `wg.Wait()` (refs.go:264) -/
  | wait
  /-- at `root.NeedTypesInfo()` (refs.go:267) -/
  | need
  /-- in the type checker; the packages that are still to be imported (loader.go:241-260) -/
  | importing (rest : List Pkg)
  /-- in the importer, between `importedPkg.Lock()` and `importedPkg.Unlock()` (loader.go:260-268) -/
  | inImport (q : Pkg) (rest : List Pkg)
  /-- before the package is added to the checked packages (refs.go:269-271) -/
  | mark
  /-- at the deferred `root.Unlock()` (refs.go:244) -/
  | unlock
  /-- at the deferred `wg.Done()` (refs.go:260); for the first goroutine this is the return of `Check` -/
  | finish
  | done
deriving DecidableEq

/-- A goroutine. -/
structure Thread where
  pkg : Pkg
  pc : PC
  /-- the goroutines that it has started: those that `wg` counts -/
  kids : List Nat := []
deriving DecidableEq

/-- The state of a call of `Check`. -/
structure St where
  threads : List Thread
  /-- the mutexes of the packages: the thread that has it -/
  owner : Pkg → Option Nat := fun _ => none
  /-- the packages with complete types, in the order in which they were type-checked -/
  typed : List Pkg
  /-- `checkedPackages` -/
  checked : List Pkg
  /-- what the importer gave: package, imported package, whether its types were complete (loader.go:263-268) -/
  saw : List (Pkg × Pkg × Bool) := []

/-- `Check` (refs.go:208-216), called with some packages checked already. -/
def St.start (root : Pkg) (typed checked : List Pkg) : St := { threads := [{ pkg := root, pc := .lock }], typed, checked }

/-- Thread `i` is replaced. -/
def St.put (s : St) (i : Nat) (t : Thread) : St := { s with threads := s.threads.set i t }

/-- The mutex of a package is taken or released. -/
def St.setOwner (s : St) (p : Pkg) (o : Option Nat) : St := { s with owner := fun q => if q = p then o else s.owner q }

/-- The next step of thread `i`, if it exists and is not blocked (refs.go:242-272, loader.go:93-99, 226-305). -/
def St.step (G : Graph) (s : St) (i : Nat) : Option St :=
  match s.threads[i]? with
  | none => none
  | some t =>
    match t.pc with
    | .lock => if s.owner t.pkg = none then some ((s.setOwner t.pkg (some i)).put i { t with pc := .look }) else none
    | .look => some (s.put i { t with pc := if t.pkg ∈ s.checked then .unlock else .spawn (G.refs t.pkg) })
    | .spawn (q :: rest) =>
      let s' := s.put i { t with pc := .spawn rest, kids := s.threads.length :: t.kids }
      some { s' with threads := s'.threads ++ [{ pkg := q, pc := .lock }] }
    | .spawn [] => some (s.put i { t with pc := .wait })
    | .wait => if ∀ k ∈ t.kids, (s.threads[k]?.map (·.pc)) = some .done then some (s.put i { t with pc := .need }) else none
    -- `NeedTypesInfo` returns if the package has types already
    | .need => some (s.put i { t with pc := if t.pkg ∈ s.typed then .mark else .importing (G.imports t.pkg) })
    | .importing (q :: rest) => if s.owner q = none then some ((s.setOwner q (some i)).put i { t with pc := .inImport q rest }) else none
    | .inImport q rest =>
      let s' := (s.setOwner q none).put i { t with pc := .importing rest }
      some { s' with saw := s.saw ++ [(t.pkg, q, decide (q ∈ s.typed))] }
    | .importing [] =>
      let s' := s.put i { t with pc := .mark }
      some { s' with typed := s.typed ++ [t.pkg] }
    | .mark =>
      let s' := s.put i { t with pc := .unlock }
      some { s' with checked := t.pkg :: s.checked }
    | .unlock => some ((s.setOwner t.pkg none).put i { t with pc := .finish })
    | .finish => some (s.put i { t with pc := .done })
    | .done => none

/-- A run: the threads that take the steps, one after the other. -/
def St.run (G : Graph) (s : St) : List Nat → Option St
  | [] => some s
  | i :: is => (s.step G i).bind fun s' => s'.run G is

/-- All goroutines have ended, and so has the call of `Check`. -/
def St.Ended (s : St) : Prop := ∀ t ∈ s.threads, t.pc = .done

end Verif.Loader
