import Verif.Crd.Schema
import Verif.Common.GoMap
import Verif.Common.Sort
/-!
# Model of allOf flattening: `/repo/pkg/crd/flatten.go:50-217`

The code works on a deep copy (flatten.go:214), so that every node of the tree is owned by its parent; the maps and pointers that
`flattenAllOfInto` moves from an allOf member to the schema are not used by the (discarded) member any more.  Hence values instead of
pointers.  Maps are iterated in the order of the association list, which is arbitrary.
-/
namespace Verif.Crd

/-- The outcome for one field: its new value in dst, the values put in the two remainders, and whether it was hoisted. -/
structure Merged (α : Type) where
  val : α
  dstRem : α
  srcRem : α
  hoisted : Bool

/-- The treatment of a field that is not named in the switch (flatten.go:83-100, 146-155).  `cmp`: its type is comparable and equal values are the
same.  Pointers are comparable, but pointers of two different schemas of the tree are never the same; slices and maps are not comparable. -/
def mergeField {α : Type} [DecidableEq α] (cmp : Bool) (zero dst src : α) : Merged α :=
  if src = zero then ⟨dst, zero, zero, false⟩
  else if dst = zero then ⟨src, zero, zero, false⟩
  else if cmp ∧ src = dst then ⟨dst, zero, zero, false⟩
  else ⟨zero, dst, src, true⟩

/-- Removing duplicates and sorting (flatten.go:163-175); `sort.Strings` makes the map order irrelevant. -/
def dedupSort (l : List String) : List String := sortStrings l.eraseDups

/-- The type field (flatten.go:116-120): the value kept, and the error. -/
def mergeType (d s : String) : String × List (String × String) :=
  if s = "" then (d, []) else if d = "" then (s, []) else if s = d then (d, []) else (d, [(d, s)])

/-- The plain fields of dst afterwards (flatten.go:69-159). -/
def mergeBase (d s : Base) : Base :=
  { d with
    id := (mergeField true "" d.id s.id).val
    schema := (mergeField true "" d.schema s.schema).val
    ref := (mergeField false none d.ref s.ref).val
    format := (mergeField true "" d.format s.format).val
    default := (mergeField false none d.default s.default).val
    maximum := (mergeField false none d.maximum s.maximum).val
    exclusiveMaximum := (mergeField true false d.exclusiveMaximum s.exclusiveMaximum).val
    minimum := (mergeField false none d.minimum s.minimum).val
    exclusiveMinimum := (mergeField true false d.exclusiveMinimum s.exclusiveMinimum).val
    maxLength := (mergeField false none d.maxLength s.maxLength).val
    minLength := (mergeField false none d.minLength s.minLength).val
    pattern := (mergeField true "" d.pattern s.pattern).val
    maxItems := (mergeField false none d.maxItems s.maxItems).val
    minItems := (mergeField false none d.minItems s.minItems).val
    uniqueItems := (mergeField true false d.uniqueItems s.uniqueItems).val
    multipleOf := (mergeField false none d.multipleOf s.multipleOf).val
    enum := (mergeField false [] d.enum s.enum).val
    maxProperties := (mergeField false none d.maxProperties s.maxProperties).val
    minProperties := (mergeField false none d.minProperties s.minProperties).val
    nullable := (mergeField true false d.nullable s.nullable).val
    xEmbeddedResource := (mergeField true false d.xEmbeddedResource s.xEmbeddedResource).val
    xIntOrString := (mergeField true false d.xIntOrString s.xIntOrString).val
    xListMapKeys := (mergeField false [] d.xListMapKeys s.xListMapKeys).val
    xListType := (mergeField false none d.xListType s.xListType).val
    type := (mergeType d.type s.type).1
    required := dedupSort (d.required ++ s.required)
    xPreserveUnknownFields := s.xPreserveUnknownFields.or d.xPreserveUnknownFields
    xMapType := s.xMapType.or d.xMapType
    xValidations := s.xValidations ++ d.xValidations }

/-- The plain fields of `dstRemainder` (flatten.go:63-66, 150-151). -/
def dstRemBase (d s : Base) : Base :=
  {
    id := (mergeField true "" d.id s.id).dstRem
    schema := (mergeField true "" d.schema s.schema).dstRem
    ref := (mergeField false none d.ref s.ref).dstRem
    format := (mergeField true "" d.format s.format).dstRem
    default := (mergeField false none d.default s.default).dstRem
    maximum := (mergeField false none d.maximum s.maximum).dstRem
    exclusiveMaximum := (mergeField true false d.exclusiveMaximum s.exclusiveMaximum).dstRem
    minimum := (mergeField false none d.minimum s.minimum).dstRem
    exclusiveMinimum := (mergeField true false d.exclusiveMinimum s.exclusiveMinimum).dstRem
    maxLength := (mergeField false none d.maxLength s.maxLength).dstRem
    minLength := (mergeField false none d.minLength s.minLength).dstRem
    pattern := (mergeField true "" d.pattern s.pattern).dstRem
    maxItems := (mergeField false none d.maxItems s.maxItems).dstRem
    minItems := (mergeField false none d.minItems s.minItems).dstRem
    uniqueItems := (mergeField true false d.uniqueItems s.uniqueItems).dstRem
    multipleOf := (mergeField false none d.multipleOf s.multipleOf).dstRem
    enum := (mergeField false [] d.enum s.enum).dstRem
    maxProperties := (mergeField false none d.maxProperties s.maxProperties).dstRem
    minProperties := (mergeField false none d.minProperties s.minProperties).dstRem
    nullable := (mergeField true false d.nullable s.nullable).dstRem
    xEmbeddedResource := (mergeField true false d.xEmbeddedResource s.xEmbeddedResource).dstRem
    xIntOrString := (mergeField true false d.xIntOrString s.xIntOrString).dstRem
    xListMapKeys := (mergeField false [] d.xListMapKeys s.xListMapKeys).dstRem
    xListType := (mergeField false none d.xListType s.xListType).dstRem }

/-- The plain fields of `srcRemainder` (flatten.go:63-66, 150-151). -/
def srcRemBase (d s : Base) : Base :=
  {
    id := (mergeField true "" d.id s.id).srcRem
    schema := (mergeField true "" d.schema s.schema).srcRem
    ref := (mergeField false none d.ref s.ref).srcRem
    format := (mergeField true "" d.format s.format).srcRem
    default := (mergeField false none d.default s.default).srcRem
    maximum := (mergeField false none d.maximum s.maximum).srcRem
    exclusiveMaximum := (mergeField true false d.exclusiveMaximum s.exclusiveMaximum).srcRem
    minimum := (mergeField false none d.minimum s.minimum).srcRem
    exclusiveMinimum := (mergeField true false d.exclusiveMinimum s.exclusiveMinimum).srcRem
    maxLength := (mergeField false none d.maxLength s.maxLength).srcRem
    minLength := (mergeField false none d.minLength s.minLength).srcRem
    pattern := (mergeField true "" d.pattern s.pattern).srcRem
    maxItems := (mergeField false none d.maxItems s.maxItems).srcRem
    minItems := (mergeField false none d.minItems s.minItems).srcRem
    uniqueItems := (mergeField true false d.uniqueItems s.uniqueItems).srcRem
    multipleOf := (mergeField false none d.multipleOf s.multipleOf).srcRem
    enum := (mergeField false [] d.enum s.enum).srcRem
    maxProperties := (mergeField false none d.maxProperties s.maxProperties).srcRem
    minProperties := (mergeField false none d.minProperties s.minProperties).srcRem
    nullable := (mergeField true false d.nullable s.nullable).srcRem
    xEmbeddedResource := (mergeField true false d.xEmbeddedResource s.xEmbeddedResource).srcRem
    xIntOrString := (mergeField true false d.xIntOrString s.xIntOrString).srcRem
    xListMapKeys := (mergeField false [] d.xListMapKeys s.xListMapKeys).srcRem
    xListType := (mergeField false none d.xListType s.xListType).srcRem }

/-- Whether a plain field is hoisted. -/
def hoistedBase (d s : Base) : Bool :=
  (mergeField true "" d.id s.id).hoisted ||
  (mergeField true "" d.schema s.schema).hoisted ||
  (mergeField false none d.ref s.ref).hoisted ||
  (mergeField true "" d.format s.format).hoisted ||
  (mergeField false none d.default s.default).hoisted ||
  (mergeField false none d.maximum s.maximum).hoisted ||
  (mergeField true false d.exclusiveMaximum s.exclusiveMaximum).hoisted ||
  (mergeField false none d.minimum s.minimum).hoisted ||
  (mergeField true false d.exclusiveMinimum s.exclusiveMinimum).hoisted ||
  (mergeField false none d.maxLength s.maxLength).hoisted ||
  (mergeField false none d.minLength s.minLength).hoisted ||
  (mergeField true "" d.pattern s.pattern).hoisted ||
  (mergeField false none d.maxItems s.maxItems).hoisted ||
  (mergeField false none d.minItems s.minItems).hoisted ||
  (mergeField true false d.uniqueItems s.uniqueItems).hoisted ||
  (mergeField false none d.multipleOf s.multipleOf).hoisted ||
  (mergeField false [] d.enum s.enum).hoisted ||
  (mergeField false none d.maxProperties s.maxProperties).hoisted ||
  (mergeField false none d.minProperties s.minProperties).hoisted ||
  (mergeField true false d.nullable s.nullable).hoisted ||
  (mergeField true false d.xEmbeddedResource s.xEmbeddedResource).hoisted ||
  (mergeField true false d.xIntOrString s.xIntOrString).hoisted ||
  (mergeField false [] d.xListMapKeys s.xListMapKeys).hoisted ||
  (mergeField false none d.xListType s.xListType).hoisted

/-- Equality with the zero value is all that is needed of the fields that contain schemas. -/
def mergeOpt {α : Type} (dst src : Option α) : Merged (Option α) :=
  match src, dst with
  | none, _ => ⟨dst, none, none, false⟩
  | some s, none => ⟨some s, none, none, false⟩
  | some s, some d => ⟨none, some d, some s, true⟩

def mergeList {α : Type} (dst src : List α) : Merged (List α) :=
  match src, dst with
  | [], _ => ⟨dst, [], [], false⟩
  | s :: ss, [] => ⟨s :: ss, [], [], false⟩
  | s :: ss, d :: ds => ⟨[], d :: ds, s :: ss, true⟩

def hoistedSub (d s : Schema) : Bool :=
  (mergeOpt d.items s.items).hoisted || (mergeList d.oneOf s.oneOf).hoisted || (mergeList d.anyOf s.anyOf).hoisted ||
  (mergeOpt d.not s.not).hoisted || (mergeList d.patternProperties s.patternProperties).hoisted ||
  (mergeList d.dependencies s.dependencies).hoisted || (mergeOpt d.additionalItems s.additionalItems).hoisted ||
  (mergeList d.definitions s.definitions).hoisted

/-- `dstRemainder`. -/
def dstRemainder (d s : Schema) : Schema :=
  .mk (dstRemBase d.base s.base) (mergeOpt d.items s.items).dstRem [] (mergeList d.oneOf s.oneOf).dstRem (mergeList d.anyOf s.anyOf).dstRem
    (mergeOpt d.not s.not).dstRem [] none (mergeList d.patternProperties s.patternProperties).dstRem
    (mergeList d.dependencies s.dependencies).dstRem (mergeOpt d.additionalItems s.additionalItems).dstRem (mergeList d.definitions s.definitions).dstRem

/-- `srcRemainder`. -/
def srcRemainder (d s : Schema) : Schema :=
  .mk (srcRemBase d.base s.base) (mergeOpt d.items s.items).srcRem [] (mergeList d.oneOf s.oneOf).srcRem (mergeList d.anyOf s.anyOf).srcRem
    (mergeOpt d.not s.not).srcRem [] none (mergeList d.patternProperties s.patternProperties).srcRem
    (mergeList d.dependencies s.dependencies).srcRem (mergeOpt d.additionalItems s.additionalItems).srcRem (mergeList d.definitions s.definitions).srcRem

/-- What `hoisted` appends to `dst.AllOf` (flatten.go:160-162). -/
def remainders (d s : Schema) : List Schema :=
  if hoistedBase d.base s.base || hoistedSub d s then [dstRemainder d s, srcRemainder d s] else []

/-- The fields of dst afterwards, given the merged properties and additionalProperties. -/
def mergeRest (d s : Schema) (props : List (String × Schema)) (addl : Option OrBool) : Schema :=
  .mk (mergeBase d.base s.base) (mergeOpt d.items s.items).val (d.allOf ++ remainders d s) (mergeList d.oneOf s.oneOf).val
    (mergeList d.anyOf s.anyOf).val (mergeOpt d.not s.not).val props addl (mergeList d.patternProperties s.patternProperties).val
    (mergeList d.dependencies s.dependencies).val (mergeOpt d.additionalItems s.additionalItems).val (mergeList d.definitions s.definitions).val

mutual
/-- `flattenAllOfInto` (flatten.go:52-181): dst afterwards, and the recorded errors (the conflicting types). -/
def flattenInto (dst : Schema) : Schema → Schema × List (String × String)
  | .mk b it al oo an nt pr ad pa de ai df =>
    let src := Schema.mk b it al oo an nt pr ad pa de ai df
    let d1 := flattenAllInto dst al
    let p := mergeProps d1.1.properties pr
    let a := mergeAddl d1.1.additionalProperties ad
    (mergeRest d1.1 src p.1 a.1, d1.2 ++ (mergeType d1.1.base.type b.type).2 ++ p.2 ++ a.2)
/-- The loop over `src.AllOf` (flatten.go:53-57), also used for the schema itself (flatten.go:195-197). -/
def flattenAllInto (dst : Schema) : List Schema → Schema × List (String × String)
  | [] => (dst, [])
  | s :: l =>
    let d1 := flattenInto dst s
    let d2 := flattenAllInto d1.1 l
    (d2.1, d1.2 ++ d2.2)
/-- Properties (flatten.go:85-95, 104-115). -/
def mergeProps (dst : List (String × Schema)) : List (String × Schema) → List (String × Schema) × List (String × String)
  | [] => (dst, [])
  | (k, v) :: l =>
    match GoMap.get dst k with
    | none => mergeProps (GoMap.put dst k v) l
    | some d =>
      let m := flattenInto d v
      let r := mergeProps (GoMap.put dst k m.1) l
      (r.1, m.2 ++ r.2)
/-- AdditionalProperties (flatten.go:85-95, 126-137). -/
def mergeAddl (dst : Option OrBool) : Option OrBool → Option OrBool × List (String × String)
  | none => (dst, [])
  | some (.mk allows none) => (some (dst.getD (.mk allows none)), [])
  | some (.mk allows (some s)) =>
    match dst with
    | none => (some (.mk allows (some s)), [])
    | some (.mk dallows ds) =>
      let m := flattenInto (ds.getD Schema.empty) s
      (some (.mk dallows (some m.1)), m.2)
end

/-- `allOfVisitor.Visit` (flatten.go:190-204). -/
def visitAllOf : Schema → Schema × List (String × String)
  | .mk b it al oo an nt pr ad pa de ai df => flattenAllInto (.mk b it [] oo an nt pr ad pa de ai df) al

/-- Apply a function with errors to the schema directly below (schema_visitor.go:79-104), in the order of the walker. -/
def mapOpt {ε : Type} (f : Schema → Schema × List ε) : Option Schema → Option Schema × List ε
  | none => (none, [])
  | some s => (some (f s).1, (f s).2)
def mapSlice {ε : Type} (f : Schema → Schema × List ε) (l : List Schema) : List Schema × List ε :=
  (l.map fun s => (f s).1, l.flatMap fun s => (f s).2)
def mapMap {ε : Type} (f : Schema → Schema × List ε) (l : List (String × Schema)) : List (String × Schema) × List ε :=
  (l.map fun e => (e.1, (f e.2).1), l.flatMap fun e => (f e.2).2)
def mapOrBool {ε : Type} (f : Schema → Schema × List ε) : Option OrBool → Option OrBool × List ε
  | none => (none, [])
  | some (.mk b s) => (some (.mk b (mapOpt f s).1), (mapOpt f s).2)
def mapItems {ε : Type} (f : Schema → Schema × List ε) : Option Items → Option Items × List ε
  | none => (none, [])
  | some (.mk s l) => (some (.mk (mapOpt f s).1 (mapSlice f l).1), (mapOpt f s).2 ++ (mapSlice f l).2)
def mapDeps {ε : Type} (f : Schema → Schema × List ε) (l : List (String × OrArray)) : List (String × OrArray) × List ε :=
  (l.map fun | (k, .mk s p) => (k, .mk (mapOpt f s).1 p), l.flatMap fun | (_, .mk s _) => (mapOpt f s).2)

/-- The walk over the children of a node (schema_visitor.go:79-104). -/
def mapChildren {ε : Type} (f : Schema → Schema × List ε) : Schema → Schema × List ε
  | .mk b it al oo an nt pr ad pa de ai df =>
    (.mk b (mapItems f it).1 (mapSlice f al).1 (mapSlice f oo).1 (mapSlice f an).1 (mapOpt f nt).1 (mapMap f pr).1 (mapOrBool f ad).1
      (mapMap f pa).1 (mapDeps f de).1 (mapOrBool f ai).1 (mapMap f df).1,
     (mapItems f it).2 ++ (mapSlice f al).2 ++ (mapSlice f oo).2 ++ (mapSlice f an).2 ++ (mapOpt f nt).2 ++ (mapMap f pr).2 ++
      (mapOrBool f ad).2 ++ (mapMap f pa).2 ++ (mapDeps f de).2 ++ (mapOrBool f ai).2 ++ (mapMap f df).2)

/-- `EditSchema` with an `allOfVisitor` (schema_visitor.go:58-104), to the given depth.  The visitor does not follow references (it never replaces
the schema), so the loop over references ends after the first round. -/
def walkAllOf : Nat → Schema → Schema × List (String × String)
  | 0, s => (s, [])
  | n + 1, s =>
    let v := visitAllOf s
    let c := mapChildren (walkAllOf n) v.1
    (c.1, v.2 ++ c.2)

mutual
/-- The depth of a schema, where an allOf member counts as part of the schema it belongs to. -/
def Schema.rank : Schema → Nat
  | .mk _ it al oo an nt pr ad pa de ai df =>
    max (rankList al) (1 + (max (rankItems it) (max (rankList oo) (max (rankList an) (max (rankOpt nt) (max (rankMap pr) (max (rankOrBool ad)
      (max (rankMap pa) (max (rankDeps de) (max (rankOrBool ai) (rankMap df)))))))))))
def rankItems : Option Items → Nat
  | none => 0
  | some (.mk s l) => max (rankOpt s) (rankList l)
def rankOpt : Option Schema → Nat
  | none => 0
  | some s => s.rank
def rankList : List Schema → Nat
  | [] => 0
  | s :: l => max s.rank (rankList l)
def rankMap : List (String × Schema) → Nat
  | [] => 0
  | (_, s) :: l => max s.rank (rankMap l)
def rankOrBool : Option OrBool → Nat
  | none => 0
  | some (.mk _ s) => rankOpt s
def rankDeps : List (String × OrArray) → Nat
  | [] => 0
  | (_, .mk s _) :: l => max (rankOpt s) (rankDeps l)
end

/-- `FlattenEmbedded` (flatten.go:213-217).  `C29_depth` shows that the depth given here suffices: a greater one makes no difference. -/
def flattenEmbedded (s : Schema) : Schema × List (String × String) := walkAllOf (2 * s.rank) s

end Verif.Crd
