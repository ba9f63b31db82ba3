import Verif.Model.Messages

/-!
# Specification: reports of the validators
-/

namespace Ocfl.Spec
open Ocfl

/-- `text` is the template with its places `%s` filled in by the values, one after the other; the
template has no other use of `%`. -/
inductive FilledIn : Str → List Str → Str → Prop
  | nil : FilledIn [] [] []
  | char {c : Char} {template : Str} {values : List Str} {text : Str} (hc : c ≠ '%') (h : FilledIn template values text) :
      FilledIn (c :: template) values (c :: text)
  | place {v template : Str} {values : List Str} {text : Str} (h : FilledIn template values text) :
      FilledIn ('%' :: 's' :: template) (v :: values) (v ++ text)

/-- `message` is the description of the code in the table, in English, with all its places filled in
by arguments given with the report, and with a link to the place in the specification. -/
def Documented (table : Dict Str CodeInfo) (specVersion code : Str) (args : Dict Str Str) (message : Str) : Prop :=
  ∃ info template params values text,
    (code, info) ∈ table ∧ info.description = some [(c!"en", template)] ∧ info.params.getD [] = params ∧
    values.map some = params.map (Dict.get? args) ∧ FilledIn template values text ∧
    message = c!"[" ++ code ++ c!"] " ++ text ++
      c!" (see https://ocfl.io/" ++ specVersion ++ c!"/spec/#" ++ code.take 4 ++ c!")"

/-- Codes of errors begin with `E`, those of warnings with `W`. -/
def RightKind (isError : Bool) (code : Str) : Prop := code.head? = some (if isError then 'E' else 'W')

/-- Arguments as they are given in the calls with a code. -/
def ArgsGiven (code : Str) (args : Dict Str Str) : Prop :=
  ∀ names, (code, names) ∈ Messages.argNames → ∀ n ∈ names, ∃ v, Dict.get? args n = some v

/-- The codes of the reports about digests of files: of the sidecar, of the manifest, of a fixity block. -/
def digestCodes : List Str := [c!"E058b", c!"E060", c!"E061", c!"E092a", c!"E093a"]

/-- The log without the reports about digests. -/
def withoutDigests (es : List Entry) : List Entry := es.filter (fun e => e.code ∉ digestCodes)

end Ocfl.Spec
