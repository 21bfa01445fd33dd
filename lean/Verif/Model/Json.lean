import Verif.Go.Utf8
import Verif.Go.Enc
import Verif.Go.Strconv
import Verif.Model.ApiRes
import Verif.Model.JsonFloat
/-!
# The JSON text of API results: encoding/json as utils/apires/res.go uses it

`json.Marshal` and `json.MarshalIndent(_, "", "  ")` of nil, booleans, integers, floats, strings, lists, structs and maps with string keys, after
the encoder of Go 1.13 and later. `[]byte`: `bytesGJ`. Not modelled: types with their own `MarshalJSON`, cyclic values.
-/
namespace Verif.Json
open Verif.Go

/-- A Go value, as the encoder sees it (utils/apires/error.go:12 `Data`, res.go:14 `Body`): `struct` are the fields that are not
omitted, in order, by their names in the JSON; `map` are the entries in the order in which they are visited; `bad` is a function, a
channel or another value that has no JSON. -/
inductive GJ where
  | nil
  | bool (b : Bool)
  | int (i : Int)
  | float (bits : Nat) (v : Flt.F)
  | str (s : Str)
  | list (l : List GJ)
  | struct (ks : List Str) (vs : List GJ)
  | map (ks : List Str) (vs : List GJ)
  | bad

/-- encoding/json `htmlSafeSet`, as used by `json.Marshal` (utils/apires/res.go:58): the ASCII bytes that stand for themselves. -/
def htmlSafe (c : UInt8) : Bool := 32 ≤ c && c < 128 && c != 34 && c != 38 && c != 60 && c != 62 && c != 92

/-- encoding/json `encodeState.string` for the other ASCII bytes (utils/apires/res.go:58); `bf`: Go 1.22 and later write `\b` and `\f`. -/
def escAscii (bf : Bool) (c : UInt8) : Str :=
  if c = 92 ∨ c = 34 then [92, c]
  else if c = 10 then [92, 110]
  else if c = 13 then [92, 114]
  else if c = 9 then [92, 116]
  else if bf = true ∧ c = 8 then [92, 98]
  else if bf = true ∧ c = 12 then [92, 102]
  else [92, 117, 48, 48, hexLower (c.toNat / 16), hexLower (c.toNat % 16)]

/-- encoding/json `encodeState.string` without the quotes (utils/apires/res.go:58); the number bounds the length. -/
def chars (bf : Bool) : Nat → Str → Str
  | 0, _ => []
  | _ + 1, [] => []
  | n + 1, c :: s =>
    if c < 128 then (if htmlSafe c then [c] else escAscii bf c) ++ chars bf n s
    else if runeLen (c :: s) = 0 then b!"\\ufffd" ++ chars bf n s
    else if (c :: s).take 3 = [0xE2, 0x80, 0xA8] then b!"\\u2028" ++ chars bf n (s.drop 2)
    else if (c :: s).take 3 = [0xE2, 0x80, 0xA9] then b!"\\u2029" ++ chars bf n (s.drop 2)
    else (c :: s).take (runeLen (c :: s)) ++ chars bf n ((c :: s).drop (runeLen (c :: s)))

/-- encoding/json `encodeState.string` (utils/apires/res.go:58). -/
def quote (bf : Bool) (s : Str) : Str := 34 :: chars bf s.length s ++ [34]

/-- Insertion by key, bytewise order (encoding/json `mapEncoder` sorts the keys; utils/apires/res.go:58). -/
def insertK {α : Type} (e : Str × α) : List (Str × α) → List (Str × α)
  | [] => [e]
  | f :: l => if e.1 ≤ f.1 then e :: f :: l else f :: insertK e l

/-- encoding/json `mapEncoder`: the entries in the order of their keys (utils/apires/res.go:58). -/
def sortK {α : Type} : List (Str × α) → List (Str × α)
  | [] => []
  | e :: l => insertK e (sortK l)

/-- encoding/json `structEncoder`, `mapEncoder`: the members, already encoded (utils/apires/res.go:58). -/
def object (bf : Bool) (l : List (Str × Str)) : Str := 123 :: join1 44 (l.map fun e => quote bf e.1 ++ 58 :: e.2) ++ [125]

mutual
/-- `json.Marshal` (utils/apires/res.go:58, 74; error.go:30); `none`: it returns an error. -/
def enc (bf : Bool) : GJ → Option Str
  | .nil => some b!"null"
  | .bool true => some b!"true"
  | .bool false => some b!"false"
  | .int i => some (fmtInt i)
  | .float bits v => jsonFloat bits v
  | .str s => some (quote bf s)
  | .list l => (encAll bf l).map fun ts => 91 :: join1 44 ts ++ [93]
  | .struct ks vs => (encAll bf vs).map fun ts => object bf (ks.zip ts)
  | .map ks vs => (encAll bf vs).map fun ts => object bf (sortK (ks.zip ts))
  | .bad => none
/-- the elements of a list or map, encoded (utils/apires/res.go:58). -/
def encAll (bf : Bool) : List GJ → Option (List Str)
  | [] => some []
  | v :: l =>
    match enc bf v, encAll bf l with
    | some t, some ts => some (t :: ts)
    | _, _ => none
end

/-- The alphabet of `base64.StdEncoding` (encoding/json `encodeByteSlice`; utils/apires/res.go:58). -/
def stdChar (n : Nat) : UInt8 :=
  if n < 26 then UInt8.ofNat (65 + n)
  else if n < 52 then UInt8.ofNat (97 + (n - 26))
  else if n < 62 then UInt8.ofNat (48 + (n - 52))
  else if n = 62 then 43 else 47

/-- `base64.StdEncoding.EncodeToString` (encoding/json `encodeByteSlice`; utils/apires/res.go:58). -/
def stdB64 : Str → Str
  | [] => []
  | [a] => [stdChar (a.toNat / 4), stdChar (a.toNat % 4 * 16), 61, 61]
  | [a, b] => [stdChar (a.toNat / 4), stdChar (a.toNat % 4 * 16 + b.toNat / 16), stdChar (b.toNat % 16 * 4), 61]
  | a :: b :: c :: r =>
    stdChar (a.toNat / 4) :: stdChar (a.toNat % 4 * 16 + b.toNat / 16) ::
    stdChar (b.toNat % 16 * 4 + c.toNat / 64) :: stdChar (c.toNat % 64) :: stdB64 r

/-- encoding/json `encodeByteSlice` (utils/apires/res.go:58): a nil slice is null. Simplification: the encoder writes quotes and base64
itself, here it is a string with the base64, which comes to the same (`C181_text`). -/
def bytesGJ : Option Str → GJ
  | none => .nil
  | some s => .str (stdB64 s)

/-! ## MarshalIndent -/

/-- Where the scanner is: outside of strings, in a string, behind a backslash (encoding/json `scanner`; utils/apires/res.go:56). -/
inductive Q where
  | out
  | str
  | esc

/-- encoding/json `newline` with the indent of utils/apires/res.go:56: two spaces. -/
def newline (d : Nat) : Str := 10 :: (List.replicate d b!"  ").flatten

/-- White space of JSON (encoding/json `isSpace`; utils/apires/res.go:56). -/
def isWs (c : UInt8) : Bool := c == 32 || c == 9 || c == 10 || c == 13

/-- encoding/json `Indent`, as `MarshalIndent` calls it on the output of `Marshal` (utils/apires/res.go:56, 72): `need` is `needIndent`,
`d` is `depth`. -/
def indentGo : Q → Bool → Nat → Str → Str
  | _, _, _, [] => []
  | .esc, need, d, c :: s => c :: indentGo .str need d s
  | .str, need, d, c :: s => c :: indentGo (if c = 92 then .esc else if c = 34 then .out else .str) need d s
  | .out, need, d, c :: s =>
    if isWs c then indentGo .out need d s
    else if c = 125 ∨ c = 93 then
      (if need then c :: indentGo .out false d s else newline (d - 1) ++ c :: indentGo .out false (d - 1) s)
    else (if need then newline (d + 1) else []) ++
      (if c = 123 ∨ c = 91 then c :: indentGo .out true (if need then d + 1 else d) s
       else if c = 44 then c :: (newline (if need then d + 1 else d) ++ indentGo .out false (if need then d + 1 else d) s)
       else if c = 58 then c :: 32 :: indentGo .out false (if need then d + 1 else d) s
       else c :: indentGo (if c = 34 then .str else .out) false (if need then d + 1 else d) s)

/-- encoding/json `Indent` (utils/apires/res.go:56). -/
def indent (t : Str) : Str := indentGo .out false 0 t

/-! ## Results -/

/-- utils/apires/res.go:68-71: the object sent if the body has no JSON; `msg` is the encoder's error. -/
def failure (msg : Str) : GJ := .map [b!"code", b!"message"] [.int 500, .str msg]

/-- A body as `writeJsonBody` sees it (utils/apires/res.go:54-76); `msg` is the encoder's error, if there is one. -/
def jval (bf : Bool) (v : GJ) (msg : Str) : Api.JVal :=
  ⟨enc bf v, (enc bf v).map indent, (enc bf (failure msg)).getD [], ((enc bf (failure msg)).map indent).getD []⟩

/-- utils/apires/error.go:8-13 with its `omitempty` tags: the fields of a `ResError` that appear in its JSON; `data` is `none` for nil. -/
def errFields (code : Int) (message : Str) (data : Option GJ) : List (Str × GJ) :=
  (if code = 0 then [] else [(b!"code", .int code)]) ++
  (if message = [] then [] else [(b!"message", .str message)]) ++
  (match data with | none => [] | some v => [(b!"data", v)])

/-- A `ResError` as the encoder sees it (utils/apires/error.go:8-13; the embedded `ResBody` has only fields tagged `-`). -/
def errGJ (code : Int) (message : Str) (data : Option GJ) : GJ :=
  .struct ((errFields code message data).map Prod.fst) ((errFields code message data).map Prod.snd)

/-- utils/apires/error.go:26-32 `Error` (of a pointer that is not nil): the JSON text, empty if there is none. -/
def errText (bf : Bool) (code : Int) (message : Str) (data : Option GJ) : Str := (enc bf (errGJ code message data)).getD []

end Verif.Json
