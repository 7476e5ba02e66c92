/-
JSON values, and how the derived implementations of `serde::Deserialize` read structs, maps,
lists and options from them. serde and serde_json are not part of the repository; this is their
documented behaviour for the attributes that src/diagram.rs and src/diagram use.
-/
namespace Verif.File

/-- `serde_json::Value` as it stands in a text: the entries of an object in their order, with
possibly repeated keys. `nat` is a number that fits into a `u64`; all other numbers are only
passed through, so that `num` keeps their text. -/
inductive Json where
  | null
  | bool (b : Bool)
  | nat (n : UInt64)
  | num (text : String)
  | str (s : String)
  | arr (l : List Json)
  | obj (m : List (String × Json))
  deriving Repr

mutual
/-- How deep arrays and objects are nested. -/
def Json.depth : Json → Nat
  | .arr l => depthList l + 1
  | .obj m => depthEntries m + 1
  | _ => 0
/-- The greatest depth in a list. -/
def depthList : List Json → Nat
  | [] => 0
  | j :: l => max j.depth (depthList l)
/-- The greatest depth of the values of an object. -/
def depthEntries : List (String × Json) → Nat
  | [] => 0
  | p :: m => max (depthEntry p) (depthEntries m)
/-- The depth of the value of an entry. -/
def depthEntry : String × Json → Nat
  | (_, j) => j.depth
end

/-- The value of a field of a struct: the outer `none` is the error for a field that occurs
twice, the inner one is a missing field. Other keys are ignored: no struct of the diagram
format has `deny_unknown_fields`. -/
def field (m : List (String × Json)) (k : String) : Option (Option Json) :=
  match m.filter (·.1 == k) with
  | [] => some none
  | [p] => some (some p.2)
  | _ => none

/-- A field without a default. -/
def req {α : Type} (m : List (String × Json)) (k : String) (read : Json → Option α) : Option α :=
  (field m k).bind (fun v => v.bind read)

/-- A field with `#[serde(default)]`. -/
def opt {α : Type} (m : List (String × Json)) (k : String) (read : Json → Option α) (d : α) :
    Option α :=
  (field m k).bind (fun v => match v with
    | none => some d
    | some v => read v)

/-- `Option<T>`. -/
def readNullable {α : Type} (read : Json → Option α) : Json → Option (Option α)
  | .null => some none
  | j => (read j).map some

/-- `Vec<T>`. -/
def readList {α : Type} (read : Json → Option α) : Json → Option (List α)
  | .arr l => l.mapM read
  | _ => none

/-- `HashMap::insert`. -/
def insert {α : Type} (m : List (String × α)) (k : String) (v : α) : List (String × α) :=
  if m.any (·.1 == k) then m.map (fun p => if p.1 == k then (k, v) else p) else m ++ [(k, v)]

/-- The entries of an object are inserted into a `HashMap` one after the other. -/
def readEntries {α : Type} (read : Json → Option α) :
    List (String × Json) → List (String × α) → Option (List (String × α))
  | [], acc => some acc
  | (k, j) :: m, acc => (read j).bind (fun v => readEntries read m (insert acc k v))

/-- `HashMap<String, T>`. The order of iteration of a `HashMap` is arbitrary; here the order is
part of the value, so that what is proved for all values is proved for every order of
iteration. -/
def readMap {α : Type} (read : Json → Option α) : Json → Option (List (String × α))
  | .obj m => readEntries read m []
  | _ => none

/-- `String` and `Arc<str>`. -/
def readStr : Json → Option String
  | .str s => some s
  | _ => none

def readBool : Json → Option Bool
  | .bool b => some b
  | _ => none

/-- Any value: `JsonMessage`. -/
def readJson : Json → Option Json := some

/-- An enum all whose variants are units: the name as a string, or as the only key of an object
with the value null. -/
def readUnit {α : Type} (variants : List (String × α)) : Json → Option α
  | .str s => variants.lookup s
  | .obj [(s, .null)] => variants.lookup s
  | _ => none

end Verif.File
