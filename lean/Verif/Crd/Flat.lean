import Verif.Common.GoMap
import Verif.Common.Sched
import Verif.Crd.Refs
import Verif.Crd.Schema

/-!
# Flattening references (flatten.go:218-446, schema_visitor.go:41-136)

The parser is modelled by the schemas it yields: `NeedSchemaFor` (parser.go:157-185) has run to its end before the flattener looks at a type,
so that what the flattener sees is a finite map from types to schemas.  `LookupReference` is `identFromRef`, as set by `Flattener.init`
(the parser sets no other one, parser.go:99-103).  Errors are counted, not described.
-/
namespace Verif.Crd

/-- `TypeIdent` (parser.go:29-32); a package is named by its identity. -/
structure TypeIdent where
  pkg : String
  name : String
deriving DecidableEq, Repr

/-- What the flattener asks the parser and the loader for. -/
structure Env where
  /-- `pkg.Imports()[path]` (loader.go:80-90); `none` is the nil pointer -/
  imports : String → String → Option String
  /-- `Parser.Schemata` after `NeedSchemaFor` (flatten.go:249-257) -/
  schemata : List (TypeIdent × Schema)

/-- The schema of a type (`loadUnflattenedSchema`, flatten.go:249-257). -/
def Env.raw (env : Env) (id : TypeIdent) : Option Schema := GoMap.get env.schemata id

/-- The results of resolving a link. -/
inductive Found
  /-- not a link of the generator -/
  | bad
  /-- the package is not among the imports: a nil `*loader.Package` -/
  | nilPkg
  | ok (id : TypeIdent)
deriving DecidableEq

/-- `identFromRef` (flatten.go:311-330). -/
def Env.find (env : Env) (ref pkg : String) : Found :=
  match refParts ref.toList with
  | none => .bad
  | some (name, []) => .ok ⟨pkg, String.ofList name⟩
  | some (name, path) =>
    match env.imports pkg (String.ofList path) with
    | none => .nilPkg
    | some q => .ok ⟨q, String.ofList name⟩

/-- `Ref != nil && len(*Ref) > 0` (flatten.go:391, schema_visitor.go:73). -/
def Schema.refOf (s : Schema) : Option String :=
  match s.base.ref with
  | none => none
  | some r => if r = "" then none else some r

/-- The documentation of the source, if it has some (flatten.go:353-366). -/
def orDoc {α : Type} [DecidableEq α] (zero src dst : α) : α := if src ≠ zero then src else dst

/-- The field as it is kept in the allOf: without reference and documentation (flatten.go:340-343). -/
def stripField : Schema → Schema
  | .mk b it al oo an nt pr ad pa de ai df =>
    .mk { b with description := [], title := "", externalDocs := none, example_ := none, ref := none } it al oo an nt pr ad pa de ai df

/-- `preserveFields` (flatten.go:335-366): dst afterwards. -/
def preserveFields (dst src : Schema) : Schema :=
  .mk { description := orDoc [] src.base.description dst.base.description
        title := orDoc "" src.base.title dst.base.title
        externalDocs := orDoc none src.base.externalDocs dst.base.externalDocs
        example_ := orDoc none src.base.example_ dst.base.example_ }
    none [dst, stripField src] [] [] none [] none [] [] none []

/-- Write a schema into the place a pointer or a slice element of `Items` (schema_visitor.go:81-84). -/
def setItems (f : Option Schema → Option Schema) (g : List Schema → List Schema) : Option Items → Option Items
  | none => none
  | some (.mk s l) => some (.mk (f s) (g l))

/-- Write a schema into the place `Schema` points to (schema_visitor.go:90-92, 98-100). -/
def setOrBool (c : Schema) : Option OrBool → Option OrBool
  | none => none
  | some (.mk a _) => some (.mk a (some c))

/-- Write a schema into the place the entry of a dependency points to (schema_visitor.go:94-97). -/
def setDep (de : List (String × OrArray)) (k : String) (c : Schema) : List (String × OrArray) :=
  match GoMap.get de k with
  | none => de
  | some (.mk _ ps) => GoMap.put de k (.mk (some c) ps)

/-- Write a schema into a place below a schema: the pointer, slice element or map entry the walker was given (schema_visitor.go:79-136). -/
def Schema.set : Schema → Step → Schema → Schema
  | .mk b it al oo an nt pr ad pa de ai df, p, c =>
    match p with
    | .items => .mk b (setItems (fun _ => some c) id it) al oo an nt pr ad pa de ai df
    | .itemsAt i => .mk b (setItems id (·.set i c) it) al oo an nt pr ad pa de ai df
    | .allOf i => .mk b it (al.set i c) oo an nt pr ad pa de ai df
    | .oneOf i => .mk b it al (oo.set i c) an nt pr ad pa de ai df
    | .anyOf i => .mk b it al oo (an.set i c) nt pr ad pa de ai df
    | .not => .mk b it al oo an (some c) pr ad pa de ai df
    | .property k => .mk b it al oo an nt (GoMap.put pr k c) ad pa de ai df
    | .additionalProperties => .mk b it al oo an nt pr (setOrBool c ad) pa de ai df
    | .patternProperty k => .mk b it al oo an nt pr ad (GoMap.put pa k c) de ai df
    | .dependency k => .mk b it al oo an nt pr ad pa (setDep de k c) ai df
    | .additionalItems => .mk b it al oo an nt pr ad pa de (setOrBool c ai) df
    | .definition k => .mk b it al oo an nt pr ad pa de ai (GoMap.put df k c)

/-- The places below a schema, in the order in which the walker visits them (schema_visitor.go:79-106): slices in order, maps in any order
(the schedule `σ` at the sites `t` to `t + 3`).  Keys of a map are distinct, `eraseDups` changes nothing. -/
def visitOrder (σ : Sched) (t : Nat) : Schema → List Step
  | .mk _ it al oo an _ pr _ pa de _ df =>
    .items :: ((List.range (it.elim 0 (·.arr.length))).map .itemsAt ++ (List.range al.length).map .allOf ++ (List.range oo.length).map .oneOf ++
      (List.range an.length).map .anyOf ++ .not :: ((σ.order t (GoMap.keys pr).eraseDups).map .property ++
      .additionalProperties :: ((σ.order (t + 1) (GoMap.keys pa).eraseDups).map .patternProperty ++
      (σ.order (t + 2) (GoMap.keys de).eraseDups).map .dependency ++ .additionalItems :: (σ.order (t + 3) (GoMap.keys df).eraseDups).map .definition)))

/-- The state of the flattener. -/
structure FState where
  /-- `flattenedTypes` (flatten.go:229) -/
  cache : List (TypeIdent × Schema) := []
  /-- the number of calls of `AddError` -/
  errs : Nat := 0
  /-- the number of map iterations so far (picks the order of the next one) -/
  tick : Nat := 0

/-- Ways to stop without a result. -/
inductive Stop
  /-- nil pointer dereference (`NeedPackage(nil)`, parser.go:225-238) -/
  | panic
  /-- the recursion went deeper than the given bound -/
  | deep
deriving DecidableEq

abbrev FRes := Except Stop (Schema × FState)

/-- Walk the places in the given order, editing the schema in place (schema_visitor.go:79-136). -/
def walkSteps (f : Schema → FState → FRes) : List Step → Schema → FState → FRes
  | [], s, st => .ok (s, st)
  | p :: ps, s, st =>
    match s.child p with
    | none => walkSteps f ps s st
    | some c =>
      match f c st with
      | .error e => .error e
      | .ok (c', st') => walkSteps f ps (s.set p c') st'

/-- The walk over the schemas below a schema (schema_visitor.go:79-106). -/
def walkKids (σ : Sched) (f : Schema → FState → FRes) (s : Schema) (st : FState) : FRes :=
  walkSteps f (visitOrder σ st.tick s) s { st with tick := st.tick + 4 }

/-- `walkSchema` with a `flattenVisitor` (schema_visitor.go:58-106, flatten.go:377-446), to the given depth.  `seen` is `seenRefs`; one call is one round of
the loop over references, with what is deferred by it.  A visitor that came from a reference only differs from one that did not by what it defers
(flatten.go:438-446), so it is represented by its package. -/
def walkRefs (env : Env) (σ : Sched) : Nat → String → List String → Schema → FState → FRes
  | 0, _, _, _, _ => .error .deep
  | n + 1, pkg, seen, s, st =>
    match s.refOf with
    | none => walkKids σ (fun c => walkRefs env σ n pkg c.base.ref.toList c) s st
    | some r =>
      match env.find r pkg with
      | .bad => .ok (s, { st with errs := st.errs + 1 })
      | .nilPkg => .error .panic
      | .ok id =>
        match GoMap.get st.cache id with
        | some c => .ok (preserveFields c s, st)
        | none =>
          match env.raw id with
          | none => .ok (s, { st with errs := st.errs + 1 })
          | some rs =>
            let st1 := { st with cache := GoMap.put st.cache id Schema.empty }
            let res :=
              match rs.refOf with
              | some r' => if r' ∈ seen then walkKids σ (fun c => walkRefs env σ n id.pkg c.base.ref.toList c) rs st1
                else walkRefs env σ n id.pkg (r' :: seen) rs st1
              | none => walkKids σ (fun c => walkRefs env σ n id.pkg c.base.ref.toList c) rs st1
            match res with
            | .error e => .error e
            | .ok (t, st2) => .ok (preserveFields t s, { st2 with cache := GoMap.put st2.cache id t })

mutual
/-- The height of a schema. -/
def Schema.height : Schema → Nat
  | .mk _ it al oo an nt pr ad pa de ai df =>
    1 + (max (heightItems it) (max (heightList al) (max (heightList oo) (max (heightList an) (max (heightOpt nt) (max (heightMap pr) (max (heightOrBool ad)
      (max (heightMap pa) (max (heightDeps de) (max (heightOrBool ai) (heightMap df)))))))))))
def heightItems : Option Items → Nat
  | none => 0
  | some (.mk s l) => max (heightOpt s) (heightList l)
def heightOpt : Option Schema → Nat
  | none => 0
  | some s => s.height
def heightList : List Schema → Nat
  | [] => 0
  | s :: l => max s.height (heightList l)
def heightMap : List (String × Schema) → Nat
  | [] => 0
  | (_, s) :: l => max s.height (heightMap l)
def heightOrBool : Option OrBool → Nat
  | none => 0
  | some (.mk _ s) => heightOpt s
def heightDeps : List (String × OrArray) → Nat
  | [] => 0
  | (_, .mk s _) :: l => max (heightOpt s) (heightDeps l)
end

/-- The greatest height of a schema of the environment. -/
def Env.height (env : Env) : Nat := (env.schemata.map (·.2.height)).foldr max 0

/-- A bound on the depth of the recursion: `C27_terminates` shows that it suffices, that is, a greater bound makes no difference. -/
def Env.bound (env : Env) (s : Schema) : Nat := s.height + env.schemata.length * (env.height + 1) + 1

/-- `FlattenSchema` (flatten.go:277-285). -/
def flattenSchema (env : Env) (σ : Sched) (s : Schema) (pkg : String) (st : FState) : FRes :=
  walkRefs env σ (env.bound s) pkg s.base.ref.toList s st

/-- `FlattenType` (flatten.go:261-273); no schema is the nil result. -/
def flattenType (env : Env) (σ : Sched) (id : TypeIdent) (st : FState) : Except Stop (Option Schema × FState) :=
  match GoMap.get st.cache id with
  | some c => .ok (some c, st)
  | none =>
    match env.raw id with
    | none => .ok (none, { st with errs := st.errs + 1 })
    | some s =>
      match flattenSchema env σ s id.pkg st with
      | .error e => .error e
      | .ok (t, st') => .ok (some t, { st' with cache := GoMap.put st'.cache id t })

/-- Flattening one type after another with the same flattener, as the generator does. -/
def flattenTypes (env : Env) (σ : Sched) : List TypeIdent → FState → Except Stop (List (Option Schema) × FState)
  | [], st => .ok ([], st)
  | id :: ids, st =>
    match flattenType env σ id st with
    | .error e => .error e
    | .ok (t, st') =>
      match flattenTypes env σ ids st' with
      | .error e => .error e
      | .ok (ts, st'') => .ok (t :: ts, st'')

end Verif.Crd
