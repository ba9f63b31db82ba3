import Verif.Model.Document

/-!
# `NewVersion` on an inventory document

`ocfl/new_version.py` once more, with the inventory as the JSON document that it is. What is only read is read with the functions of
`Verif.Model.NewVersion`.
-/

namespace Ocfl
namespace Doc

/-- `NewVersion`, `ocfl/new_version.py` lines 28-51: the document and the other attributes. The inventory in `rest` is not used. -/
structure NewVersion where
  doc : Json
  rest : NV

/-- What the library sees. -/
def NewVersion.view (x : NewVersion) : NV := { x.rest with inv := Inv.ofJson x.doc }

/-- `NewVersion.next_version(...)`, `ocfl/new_version.py` lines 153-242; `metadata` is a `dict`. After an exception there is no `NewVersion`;
what has become of the inventory is not said. -/
def nextVersion (doc : Json) (specVersion : Str) (metadata : Option Json) (norm : Option Str) (forwardDelta dedupe carryContentForward : Bool)
    (oldDigestAlgorithm : Option Str) : Py NewVersion :=
  let finish (doc : Json) : Py NewVersion :=
    let inv := Inv.ofJson doc
    let state : DigestMap :=
      if carryContentForward then
        match inv.head with
        | none => []
        | some h => inv.stateOf h
      else []
    match addVersion none metadata (some state) none doc with
    | (_, .error e) => .error e
    | (doc, .ok ()) => .ok ⟨doc, { inv := {}, norm := norm, forwardDelta := some forwardDelta, dedupe := dedupe,
                                    oldDigestAlgorithm := oldDigestAlgorithm }⟩
  if some specVersion ≠ (Inv.ofJson doc).specVersion then
    match (Inv.ofJson doc).specVersion with
    | none => .error .typeError
    | some cur =>
      if NV.strLt specVersion cur then .error .newVersionException
      else finish (setSpecVersion specVersion doc)
  else finish doc

/-- `add(src_path, logical_path, content_path)`, `ocfl/new_version.py` lines 286-346. -/
def NewVersion.add (E : NVEnv) (srcPath logicalPath : Str) (contentPath : Option Str) (x : NewVersion) : NewVersion × Py Unit :=
  match x.view.inv.head with
  | none => (x, .error .typeError)
  | some head =>
    match x.view.chooseContentPath E head srcPath contentPath with
    | .error e => (x, .error e)
    | .ok cp =>
      if logicalPath ∈ x.view.inv.logicalPaths head then (x, .error .newVersionException)
      else
        match E.srcDigest (x.view.inv.digestAlgorithm.getD []) srcPath with
        | .error e => (x, .error e)
        | .ok digest =>
          match needState head x.doc with
          | (doc1, .error e) => (⟨doc1, x.rest⟩, .error e)
          | (doc1, .ok ()) =>
            let x1 : NewVersion := ⟨stateAppend head digest logicalPath doc1, x.rest⟩
            if x1.view.wantCopy head (x1.view.inv.contentPathsForDigest digest) then
              let rest := { x.rest with filesToCopy := Dict.set x.rest.filesToCopy srcPath cp }
              let r := addFileToManifest digest cp x1.doc
              (⟨r.1, rest⟩, r.2)
            else (x1, .ok ())

/-- `delete(logical_path)`, `ocfl/new_version.py` lines 348-366. -/
def NewVersion.delete (logicalPath : Str) (x : NewVersion) : NewVersion × Py Unit :=
  match x.view.inv.head with
  | none => (x, .error .newVersionException)
  | some head =>
    match deleteLogicalPath head logicalPath x.doc with
    | (doc1, .error _) => (⟨doc1, x.rest⟩, .error .newVersionException)
    | (doc1, .ok _) => (⟨doc1, x.rest⟩, .ok ())

/-- `rename(old, new)`, `ocfl/new_version.py` lines 368-389. -/
def NewVersion.rename (oldPath newPath : Str) (x : NewVersion) : NewVersion × Py Unit :=
  match x.view.inv.head with
  | none => (x, .error .newVersionException)
  | some head =>
    if newPath ∈ x.view.inv.logicalPaths head then (x, .error .newVersionException)
    else
      match deleteLogicalPath head oldPath x.doc with
      | (doc1, .error _) => (⟨doc1, x.rest⟩, .error .newVersionException)
      | (doc1, .ok digest) => (⟨stateAppend head digest newPath doc1, x.rest⟩, .ok ())

/-- The setters of `NewVersion`, `ocfl/new_version.py` lines 396-434. -/
def NewVersion.setMeta (m : NV.MetaOp) (x : NewVersion) : NewVersion × Py Unit :=
  match x.view.inv.head with
  | none =>
    match m with
    | .created _ | .message _ => (x, .ok ())
    | .userAddress _ | .userName _ => (x, .error .keyError)
  | some head =>
    match m with
    | .created v => (⟨block head (put c!"created" (.str v)) x.doc, x.rest⟩, .ok ())
    | .message v => (⟨block head (put c!"message" (.str v)) x.doc, x.rest⟩, .ok ())
    | .userAddress v => (⟨(setUser c!"address" head v x.doc).1, x.rest⟩, (setUser c!"address" head v x.doc).2)
    | .userName v => (⟨(setUser c!"name" head v x.doc).1, x.rest⟩, (setUser c!"name" head v x.doc).2)

/-- A call of a method or an assignment to a property of a `NewVersion`. -/
def NewVersion.exec (E : NVEnv) (x : NewVersion) : NV.Call → NewVersion × Py Unit
  | .content (.add s l c) => x.add E s l c
  | .content (.delete l) => x.delete l
  | .content (.rename o n) => x.rename o n
  | .said m => x.setMeta m

/-- Calls one after the other, whatever they raise. -/
def NewVersion.execAll (E : NVEnv) : List NV.Call → NewVersion → NewVersion × List (Py Unit)
  | [], x => (x, [])
  | c :: cs, x =>
    let r := x.exec E c
    let rest := NewVersion.execAll E cs r.1
    (rest.1, r.2 :: rest.2)

end Doc
end Ocfl
