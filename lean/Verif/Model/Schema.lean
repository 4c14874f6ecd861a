import Verif.Model.Lint
/-
Model of src/spex/resources/stage2.schema.json, and of the part of JSON Schema (draft 2020-12) which it uses (`validate` of the
jsonschema package, called in src/spex/validate.py:17). `$schema`, `title` and `description` do not matter to validation.
-/
set_option autoImplicit false
namespace Spex

/-- values of the keyword `type` (jsonschema, called in validate.py:17) -/
inductive JsonType where
  | object | array | string | number | integer
  deriving DecidableEq

/-- A schema: keywords, each of which constrains a value (jsonschema, called in validate.py:17). -/
inductive Schema where
  | type (t : JsonType)
  | properties (ps : List (Str × Schema))
  | required (ks : List Str)
  | items (s : Schema)
  | minItems (n : Nat)
  | enum (vs : List Str)
  | minimum (n : Int)
  | maximum (n : Int)
  | anyOf (ss : List Schema)
  /-- several keywords -/
  | all (ss : List Schema)

/-- the keyword `type` (jsonschema, called in validate.py:17) -/
def JsonType.has : JsonType → Json → Bool
  | .object, .obj _ => true
  | .array, .arr _ => true
  | .string, .str _ => true
  | .number, .num _ => true
  | .integer, .num _ => true
  | _, _ => false

mutual
/-- whether a value satisfies a schema. Keywords which do not apply to the type of a value are satisfied by it (jsonschema, called in
validate.py:17). -/
def Schema.valid : Schema → Json → Bool
  | .type t, j => t.has j
  | .properties ps, .obj kvs => Schema.validProps ps kvs
  | .properties _, _ => true
  | .required ks, .obj kvs => ks.all fun k => (kvs.lookup k).isSome
  | .required _, _ => true
  | .items s, .arr xs => xs.all s.valid
  | .items _, _ => true
  | .minItems n, .arr xs => n ≤ xs.length
  | .minItems _, _ => true
  | .enum vs, .str s => vs.contains s
  | .enum _, _ => false
  | .minimum n, .num i => n ≤ i
  | .minimum _, _ => true
  | .maximum n, .num i => i ≤ n
  | .maximum _, _ => true
  | .anyOf ss, j => Schema.validAny ss j
  | .all ss, j => Schema.validAll ss j
/-- the keyword `properties`: those which are present satisfy their schema (jsonschema, called in validate.py:17) -/
def Schema.validProps : List (Str × Schema) → List (Str × Json) → Bool
  | [], _ => true
  | (k, s) :: ps, kvs => (match kvs.lookup k with | none => true | some v => s.valid v) && Schema.validProps ps kvs
/-- jsonschema, called in validate.py:17 -/
def Schema.validAny : List Schema → Json → Bool
  | [], _ => false
  | s :: ss, j => s.valid j || Schema.validAny ss j
/-- jsonschema, called in validate.py:17 -/
def Schema.validAll : List Schema → Json → Bool
  | [], _ => true
  | s :: ss, j => s.valid j && Schema.validAll ss j
end

/-- {"type": "string"} (stage2.schema.json:13 and elsewhere) -/
def sString : Schema := .type .string

/-- meta.lint.items (stage2.schema.json:31-56) -/
def lintSchema : Schema := .all [.type .object,
  .properties [(c!"code", sString), (c!"msg", sString), (c!"fig", sString), (c!"context", .type .object), (c!"row", sString)],
  .required [c!"code", c!"msg", c!"fig", c!"context"]]

/-- meta (stage2.schema.json:7-64) -/
def metaSchema : Schema := .all [.type .object,
  .properties [(c!"specification", sString), (c!"revision", sString), (c!"format version", .all [.type .number, .minimum 1]),
    (c!"spex version", sString), (c!"lint", .all [.type .array, .items lintSchema])],
  .required [c!"specification", c!"revision", c!"format version"]]

/-- the items of `fields` of values (stage2.schema.json:87-104) -/
def valueFieldSchema : Schema := .all [.type .object,
  .properties [(c!"val", sString), (c!"label", sString), (c!"brief", sString)],
  .required [c!"val", c!"label"]]

/-- entities of values (stage2.schema.json:69-112) -/
def valuesSchema : Schema := .all [.type .object,
  .properties [(c!"title", sString), (c!"fig_id", sString), (c!"type", .all [sString, .enum [c!"values"]]),
    (c!"fields", .all [.type .array, .items valueFieldSchema, .minItems 1])],
  .required [c!"fig_id", c!"type"]]

/-- `range` (stage2.schema.json:134-172) -/
def rangeSchema : Schema := .anyOf [
  sString,
  .all [.type .object, .properties [(c!"low", .all [.type .integer, .minimum 0]), (c!"high", .type .integer)]],
  .all [.type .object, .properties [(c!"low", .all [.type .integer, .minimum (-1), .maximum (-1)]),
    (c!"high", .all [.type .integer, .minimum (-1), .maximum (-1)])]]]

/-- the items of `fields` of structs (stage2.schema.json:131-184) -/
def structFieldSchema : Schema := .all [.type .object,
  .properties [(c!"range", rangeSchema), (c!"label", sString), (c!"brief", sString)],
  .required [c!"range", c!"label"]]

/-- entities of bits and bytes (stage2.schema.json:113-191) -/
def structSchema : Schema := .all [.type .object,
  .properties [(c!"title", sString), (c!"fig_id", sString), (c!"type", .all [sString, .enum [c!"bits", c!"bytes"]]),
    (c!"fields", .all [.type .array, .items structFieldSchema])],
  .required [c!"fig_id", c!"type"]]

/-- stage2.schema.json (resources/stage2.schema.json:1-197) -/
def stage2Schema : Schema := .all [.type .object,
  .properties [(c!"meta", metaSchema), (c!"entities", .all [.type .array, .items (.anyOf [valuesSchema, structSchema])])],
  .required [c!"meta", c!"entities"]]

end Spex
