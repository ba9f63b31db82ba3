import Verif.Model.Logger
import Verif.Model.Validation

/-!
# The texts of `ocfl/validation_logger.py`

What `ValidationLogger.log` makes of a code and its arguments. An argument is its name and the
text `str` gives for its value.
-/

namespace Ocfl

/-- The entry for one code in `data/validation-errors.json`: names of the parameters and
descriptions by language; either may be missing. -/
structure CodeInfo where
  params : Option (List Str) := none
  description : Option (Dict Str Str) := none
  deriving DecidableEq, Repr

namespace Messages

/-- The first key in the order of strings. -/
def firstKey (keys : List Str) : Str :=
  keys.foldl (fun a b => if decide (b.map Char.toNat < a.map Char.toNat) then b else a) (keys.headD [])

/-- The choice of the language, `ocfl/validation_logger.py` lines 104-112. -/
def langText (lang severity : Str) (desc : Dict Str Str) : Str :=
  match Dict.get? desc lang with
  | some t => t
  | none =>
    match Dict.get? desc c!"en" with
    | some t => t
    | none =>
      if desc.length > 0 then (Dict.get? desc (firstKey (Dict.keys desc))).getD []
      else c!"Unknown " ++ severity ++ c!" without a description"

/-- `template % tuple(values)` for a template whose only conversions are `%s`; `none` stands for the
`TypeError` if there are too few or too many values. Simplification: any other use of `%` is taken
for a `TypeError` too (`data/validation-errors.json` has none). -/
def percent : Str → List Str → Option Str
  | [], [] => some []
  | [], _ :: _ => none
  | '%' :: 's' :: rest, v :: vs => (percent rest vs).map (v ++ ·)
  | '%' :: _, _ => none
  | c :: rest, vs => (percent rest vs).map (c :: ·)

/-- The values of the parameters, `ocfl/validation_logger.py` lines 115-117. -/
def paramValues (args : Dict Str Str) (params : List Str) : List Str :=
  params.map (fun p => (Dict.get? args p).getD c!"???")

/-- `re.match(r"([EW](\d\d\d))", code)`, `ocfl/validation_logger.py` line 126: both groups. -/
def matchCode (code : Str) : Option (Str × Str) :=
  match code with
  | l :: a :: b :: c :: _ =>
    if (l = 'E' ∨ l = 'W') ∧ isDigit a ∧ isDigit b ∧ isDigit c then some ([l, a, b, c], [a, b, c]) else none
  | _ => none

/-- The link to the specification, `ocfl/validation_logger.py` lines 80-83 and 125-128. -/
def specLink (specVersion code : Str) : Str :=
  match matchCode code with
  | none => []
  | some (anchor, number) =>
    if intOf number < 200 then c!" (see https://ocfl.io/" ++ specVersion ++ c!"/spec/#" ++ anchor ++ c!")" else []

/-- The text without the link, `ocfl/validation_logger.py` lines 101-124. `repr` is `str` of the dict
of the arguments. -/
def body (table : Dict Str CodeInfo) (repr : Dict Str Str → Str) (lang : Str) (code : Str) (isError : Bool)
    (args : Dict Str Str) : Str :=
  let severity := if isError then c!"error" else c!"warning"
  let unknown := c!"Unknown " ++ severity ++ c!": " ++ code ++ c!" - params (" ++ repr args ++ c!")"
  match Dict.get? table code with
  | none => unknown
  | some info =>
    match info.description with
    | none => unknown
    | some desc =>
      let text := langText lang severity desc
      c!"[" ++ code ++ c!"] " ++
        match info.params with
        | none => text
        | some params => (percent text (paramValues args params)).getD (text ++ c!" " ++ repr args)

/-- The text of `log(code, is_error, **args)`, `ocfl/validation_logger.py` lines 100-128. -/
def message (table : Dict Str CodeInfo) (repr : Dict Str Str → Str) (lang specVersion : Str) (code : Str)
    (isError : Bool) (args : Dict Str Str) : Str :=
  body table repr lang code isError args ++ specLink specVersion code

set_option maxRecDepth 100000 in
/-- `ocfl/data/validation-errors.json`, without the entries `spec`, which the code does not use. -/
def standard : Dict Str CodeInfo :=
  [(c!"E001a", ⟨some [c!"file"], some [(c!"en", c!"OCFL Object root contains unexpected file: %s")]⟩),
   (c!"E001b", ⟨some [c!"dir"], some [(c!"en", c!"OCFL Object root contains unexpected directory: %s")]⟩),
   (c!"E001c", ⟨some [c!"entry"], some [(c!"en", c!"OCFL Object root contains unexpected entry that isn't a file or directory: %s")]⟩),
   (c!"E002", ⟨none, some [(c!"en", c!"NOTE - E002 is redundant to more specific errors E003, E004, E005, E006.")]⟩),
   (c!"E003a", ⟨some [c!"assumed_version"], some [(c!"en", c!"OCFL Object version declaration file is missing (assuming version %s)")]⟩),
   (c!"E003b", ⟨some [c!"files", c!"using_version"], some [(c!"en", c!"OCFL Object includes more that one file that looks like an object declaration (got %s), using version %s")]⟩),
   (c!"E003c", ⟨some [c!"assumed_version"], some [(c!"en", c!"OCFL Object includes one or more object declaration files (starting 0=) but no valid version number could be extracted from any of them (assuming version %s)")]⟩),
   (c!"E003d", ⟨some [c!"path"], some [(c!"en", c!"OCFL Storage Root hierarchy includes directory %s with more that one file that looks like an object declaration, ignoring")]⟩),
   (c!"E003e", ⟨some [c!"path"], some [(c!"en", c!"No OCFL Object to validate at path %s. The root of an OCFL Object must be a directory containing an object declaration")]⟩),
   (c!"E004a", ⟨some [c!"path", c!"version"], some [(c!"en", c!"OCFL Storage Root hierarchy includes directory %s with an object declaration giving unknown version %s, ignoring")]⟩),
   (c!"E004b", ⟨some [c!"path", c!"declaration"], some [(c!"en", c!"OCFL Storage Root hierarchy includes directory %s with an unrecognized object declaration %s, ignoring")]⟩),
   (c!"E006", ⟨some [c!"filename"], some [(c!"en", c!"The OCFL object conformance declaration filename must be 0=ocfl_object_, followed by the OCFL specification version number, got %s instead")]⟩),
   (c!"E007", ⟨some [c!"filename"], some [(c!"en", c!"OCFL Object declaration file %s contents do not match file name without leading 0= (the 'dvalue')")]⟩),
   (c!"E008", ⟨some [c!"where"], some [(c!"en", c!"OCFL Object %s inventory versions block does not contain any versions, there must be at least version 1")]⟩),
   (c!"E009", ⟨some [c!"where"], some [(c!"en", c!"OCFL Object %s inventory versions block does not contain v1 or a zero padded equivalent")]⟩),
   (c!"E010", ⟨some [c!"where"], some [(c!"en", c!"OCFL Object %s inventory versions block includes an out-of-sequence version")]⟩),
   (c!"E015", ⟨some [c!"where", c!"entry"], some [(c!"en", c!"OCFL Object version directory %s includes an illegal file (%s)")]⟩),
   (c!"E017", ⟨some [c!"where"], some [(c!"en", c!"OCFL Object %s inventory contentDirectory must be a string and must not contain a forward slash (/)")]⟩),
   (c!"E018", ⟨some [c!"where"], some [(c!"en", c!"OCFL Object %s inventory contentDirectory must not be either . or ..")]⟩),
   (c!"E019", ⟨some [c!"where"], some [(c!"en", c!"OCFL Object %s inventory sets contentDirectory whereas it was not set in the first version inventory")]⟩),
   (c!"E020", ⟨some [c!"where", c!"version_content_directory", c!"root_content_directory"], some [(c!"en", c!"OCFL Object %s inventory contentDirectory %s does not match root contentDirectory %s")]⟩),
   (c!"E023a", ⟨some [c!"where", c!"extra_files"], some [(c!"en", c!"OCFL Object includes one or more files that are not mentioned in the  %s inventory manifest (%s)")]⟩),
   (c!"E023b", ⟨some [c!"where", c!"missing_filepaths"], some [(c!"en", c!"OCFL Object %s manifest does not include files listed in previous version manifests (%s)")]⟩),
   (c!"E024", ⟨some [c!"where", c!"path"], some [(c!"en", c!"OCFL Object version %s content directory includes empty path %s")]⟩),
   (c!"E025a", ⟨some [c!"where", c!"digest_algorithm"], some [(c!"en", c!"OCFL Object %s inventory `digestAlgorithm` attribute not an allowed digest type (got '%s')")]⟩),
   (c!"E025b", ⟨some [c!"where", c!"digest", c!"algorithm"], some [(c!"en", c!"OCFL Object %s inventory manifest block includes a digest (%s) that doesn't have the correct form for the %s algorithm")]⟩),
   (c!"E026a", ⟨some [c!"where", c!"digest"], some [(c!"en", c!"OCFL Object %s inventory uses unknown digest type %s")]⟩),
   (c!"E033", ⟨some [c!"where", c!"explanation"], some [(c!"en", c!"OCFL Object %s inventory is not valid JSON (%s)")]⟩),
   (c!"E036a", ⟨some [c!"where"], some [(c!"en", c!"OCFL Object %s inventory missing `id` attribute")]⟩),
   (c!"E036b", ⟨some [c!"where"], some [(c!"en", c!"OCFL Object %s inventory missing `type` attribute")]⟩),
   (c!"E036c", ⟨some [c!"where"], some [(c!"en", c!"OCFL Object %s inventory missing `digestAlgorithm` attribute")]⟩),
   (c!"E036d", ⟨some [c!"where"], some [(c!"en", c!"OCFL Object %s inventory missing `head` attribute")]⟩),
   (c!"E037a", ⟨some [c!"where"], some [(c!"en", c!"OCFL Object %s inventory `id` attribute is empty or badly formed")]⟩),
   (c!"E037b", ⟨some [c!"where", c!"version_id", c!"root_id"], some [(c!"en", c!"OCFL Object %s inventory id `%s` does not match the value in the root inventory `%s`")]⟩),
   (c!"E038a", ⟨some [c!"where", c!"expected", c!"got"], some [(c!"en", c!"OCFL Object %s inventory `type` attribute has wrong value (expected %s, got %s)")]⟩),
   (c!"E038b", ⟨some [c!"where", c!"got", c!"assumed_spec_version"], some [(c!"en", c!"OCFL Object %s inventory `type` attribute does not look like a valid specification URI (got %s), will proceed as if using version %s")]⟩),
   (c!"E038c", ⟨some [c!"where", c!"got", c!"assumed_spec_version"], some [(c!"en", c!"OCFL Object %s inventory `type` attribute has an unsupported specification version number (%s), will proceed as if using version %s")]⟩),
   (c!"E038d", ⟨some [c!"where"], some [(c!"en", c!"OCFL Object %s inventory `type` attribute does not have a string value")]⟩),
   (c!"E040", ⟨some [c!"where", c!"got", c!"expected"], some [(c!"en", c!"OCFL Object %s inventory head attribute doesn't match versions (got %s, expected %s)")]⟩),
   (c!"E041a", ⟨some [c!"where"], some [(c!"en", c!"OCFL Object %s inventory missing `manifest` attribute")]⟩),
   (c!"E041b", ⟨some [c!"where"], some [(c!"en", c!"OCFL Object %s inventory missing `versions` attribute")]⟩),
   (c!"E041c", ⟨some [c!"where"], some [(c!"en", c!"OCFL Object %s inventory manifest block is not a JSON object")]⟩),
   (c!"E042a", ⟨some [c!"where", c!"path"], some [(c!"en", c!"OCFL Object %s inventory manifest includes invalid content path %s")]⟩),
   (c!"E042b", ⟨some [c!"where", c!"path"], some [(c!"en", c!"OCFL Object %s inventory manifest includes content path %s with invalid version directory")]⟩),
   (c!"E042c", ⟨some [c!"where", c!"path", c!"content_directory"], some [(c!"en", c!"OCFL Object %s inventory manifest includes invalid content path %s that doesn't match the content directory name %s")]⟩),
   (c!"E044", ⟨some [c!"where"], some [(c!"en", c!"OCFL Object %s inventory versions block is not a JSON object")]⟩),
   (c!"E046a", ⟨some [c!"version_dir"], some [(c!"en", c!"OCFL Object root inventory describes version %s but no corresponding version directory is present")]⟩),
   (c!"E046b", ⟨some [c!"dir"], some [(c!"en", c!"OCFL Object includes directory %s that looks like a version directory but isn't a valid version in the inventory")]⟩),
   (c!"E048", ⟨some [c!"where", c!"version"], some [(c!"en", c!"OCFL Object %s inventory %s version block does not include a created date or it is malformed")]⟩),
   (c!"E048c", ⟨some [c!"where", c!"version"], some [(c!"en", c!"OCFL Object %s inventory %s version block does not include a state block")]⟩),
   (c!"E049a", ⟨some [c!"where", c!"version"], some [(c!"en", c!"OCFL Object %s inventory %s version block created date SHOULD include a timezone designator")]⟩),
   (c!"E049b", ⟨some [c!"where", c!"version"], some [(c!"en", c!"OCFL Object %s inventory %s version block created date SHOULD be granular to the seconds level")]⟩),
   (c!"E049c", ⟨some [c!"where", c!"version", c!"description"], some [(c!"en", c!"OCFL Object %s inventory %s version block has bad created date, must be IS8601 (%s)")]⟩),
   (c!"E049d", ⟨some [c!"where", c!"version"], some [(c!"en", c!"OCFL Object %s inventory %s version block created value is not a JSON string")]⟩),
   (c!"E050a", ⟨some [c!"where", c!"digests"], some [(c!"en", c!"OCFL Object %s inventory state refers to one or more digests that are not in the manifest (%s)")]⟩),
   (c!"E050c", ⟨some [c!"where", c!"version"], some [(c!"en", c!"OCFL Object %s inventory %s version block state block is not a JSON object")]⟩),
   (c!"E050d", ⟨some [c!"where", c!"version", c!"digest"], some [(c!"en", c!"OCFL Object %s inventory %s version state block includes a bad digest (%s)")]⟩),
   (c!"E050e", ⟨some [c!"where", c!"version", c!"digest"], some [(c!"en", c!"OCFL Object %s inventory %s version block state block value for digest %s is not list")]⟩),
   (c!"E050f", ⟨some [c!"where", c!"version", c!"digest"], some [(c!"en", c!"OCFL Object %s inventory version %s state includes digest value %s that is not listed in the manifest block")]⟩),
   (c!"E051", ⟨none, some [(c!"en", c!"NOTE - E051 is essentially a processing instruction and can't be tested for.")]⟩),
   (c!"E052", ⟨some [c!"where", c!"version", c!"path"], some [(c!"en", c!"OCFL Object %s inventory %s version block state block includes an invalid path %s that starts or ends with /")]⟩),
   (c!"E053", ⟨some [c!"where", c!"version", c!"path"], some [(c!"en", c!"OCFL Object %s inventory %s version block state block includes an invalid path %s that includes . .. or //")]⟩),
   (c!"E054a", ⟨some [c!"where", c!"version"], some [(c!"en", c!"OCFL Object %s inventory %s version block has user key with value that isn't a JSON object")]⟩),
   (c!"E054b", ⟨some [c!"where", c!"version"], some [(c!"en", c!"OCFL Object %s inventory %s version block has user/name key with value that isn't a string")]⟩),
   (c!"E054c", ⟨some [c!"where", c!"version"], some [(c!"en", c!"OCFL Object %s inventory %s version block has user/address key with value that isn't a string")]⟩),
   (c!"E056a", ⟨some [c!"where"], some [(c!"en", c!"OCFL Object %s inventory includes a fixity key with value that isn't a JSON object")]⟩),
   (c!"E056b", ⟨some [c!"where", c!"algorithm"], some [(c!"en", c!"OCFL Object %s inventory fixity block includes a key that is not a known digest algorithm name: %s")]⟩),
   (c!"E057a", ⟨some [c!"where", c!"algorithm"], some [(c!"en", c!"OCFL Object %s inventory fixity block entry for digest algorithm name %s is not a JSON object")]⟩),
   (c!"E057b", ⟨some [c!"where", c!"algorithm", c!"digest"], some [(c!"en", c!"OCFL Object %s inventory fixity block entry for digest algorithm %s includes digest %s which has the wrong form")]⟩),
   (c!"E057c", ⟨some [c!"where", c!"algorithm", c!"digest"], some [(c!"en", c!"OCFL Object %s inventory fixity block entry for digest algorithm %s, digest %s is not a JSON list")]⟩),
   (c!"E057d", ⟨some [c!"where", c!"algorithm", c!"digest", c!"path"], some [(c!"en", c!"OCFL Object %s inventory fixity block entry for digest algorithm %s, digest %s includes a content path %s that is not in the manifest")]⟩),
   (c!"E058a", ⟨some [c!"where", c!"path"], some [(c!"en", c!"OCFL Object %s inventory is missing sidecar digest file at %s")]⟩),
   (c!"E058b", ⟨some [c!"inv_digest_file"], some [(c!"en", c!"Cannot extract digest type from inventory digest file name %s")]⟩),
   (c!"E060", ⟨some [c!"inv_file", c!"actual", c!"recorded", c!"inv_digest_file"], some [(c!"en", c!"Mismatch between actual and recorded inventory digests for %s (calculated %s but read %s from %s)")]⟩),
   (c!"E061", ⟨some [c!"description"], some [(c!"en", c!"Cannot extract digest from inventory digest file (%s)")]⟩),
   (c!"E063", ⟨none, some [(c!"en", c!"OCFL Object root inventory is missing")]⟩),
   (c!"E064", ⟨some [c!"root_inv_file", c!"inv_file"], some [(c!"en", c!"Object root inventory and copy in last version MUST be identical but are not (%s and %s)")]⟩),
   (c!"E066a", ⟨some [c!"prior_head", c!"where"], some [(c!"en", c!"OCFL Object inventory for %s doesn't have a subset of version blocks of inventory for %s")]⟩),
   (c!"E066b", ⟨some [c!"prior_head", c!"version", c!"where", c!"logical_paths", c!"only_in"], some [(c!"en", c!"OCFL Object %s inventory %s version state doesn't have same logical paths as same version in %s inventory (paths %s only in %s inventory)")]⟩),
   (c!"E066c", ⟨some [c!"prior_head", c!"version", c!"logical_path", c!"prior_content", c!"where", c!"current_content"], some [(c!"en", c!"OCFL Object %s inventory %s version state has logical path %s that maps to content path %s, but in %s inventory it maps to content path %s")]⟩),
   (c!"E066d", ⟨some [c!"where", c!"version", c!"digest", c!"logical_files", c!"prior_head"], some [(c!"en", c!"OCFL Object %s inventory %s version state has digest %s (mapping to logical files %s) that does not appear in the %s inventory")]⟩),
   (c!"E066e", ⟨some [c!"prior_head", c!"version", c!"digest", c!"logical_files", c!"where"], some [(c!"en", c!"OCFL Object %s inventory %s version state has digest %s (mapping to logical files %s) that does not appear in the %s inventory")]⟩),
   (c!"E067", ⟨some [c!"entry"], some [(c!"en", c!"OCFL Object extensions direct contains an unexpected non-directory entry: %s")]⟩),
   (c!"E069a", ⟨some [c!"root"], some [(c!"en", c!"OCFL Storage Root %s lacks required 0= declaration file")]⟩),
   (c!"E069b", ⟨some [c!"root"], some [(c!"en", c!"OCFL Storage Root %s has more than one 0= declaration file")]⟩),
   (c!"E069c", ⟨some [c!"root", c!"namaste_file"], some [(c!"en", c!"OCFL Storage Root %s has unrecognized 0= declaration file %s")]⟩),
   (c!"E069d", ⟨some [c!"root", c!"declared_spec_version", c!"expected_spec_version"], some [(c!"en", c!"OCFL Storage Root %s 0= declaration is for spec version %s, not %s as expected")]⟩),
   (c!"E069e", ⟨some [c!"root", c!"namaste_file"], some [(c!"en", c!"OCFL Storage Root %s required declaration file %s has invalid content")]⟩),
   (c!"E070a", ⟨some [c!"root", c!"message"], some [(c!"en", c!"OCFL Storage Root %s includes ocfl_layout.json with unknown layout %s")]⟩),
   (c!"E070b", ⟨some [c!"root", c!"message"], some [(c!"en", c!"OCFL Storage Root %s has an ocfl_layout.json file that isn't a JSON object")]⟩),
   (c!"E070c", ⟨some [c!"root", c!"message"], some [(c!"en", c!"OCFL Storage Root %s Storage root %s has layout file doesn't have required extension and description string entries")]⟩),
   (c!"E071", ⟨some [c!"root", c!"layout_name"], some [(c!"en", c!"OCFL Storage Root %s includes ocfl_layout.json with unknown layout %s")]⟩),
   (c!"E072", ⟨some [c!"path"], some [(c!"en", c!"OCFL storage root hierarchy include directory %s with at least one file but no object declaration. Such additional files are not allowed")]⟩),
   (c!"E073", ⟨some [c!"path"], some [(c!"en", c!"OCFL storage root hierarchy contains an empty directory: %s")]⟩),
   (c!"E086", ⟨some [c!"entry"], some [(c!"en", c!"OCFL Storage Root extensions direct contains an unexpected non-directory entry: %s")]⟩),
   (c!"E087", ⟨none, some [(c!"en", c!"NOTE - E087 is a processing instruction and can't be tested for")]⟩),
   (c!"E088", ⟨none, some [(c!"en", c!"NOTE - E088 is redundant to more specific errors E072 and E073")]⟩),
   (c!"E090", ⟨none, some [(c!"en", c!"NOTE - E090 is a processing instruction and can't be tested for")]⟩),
   (c!"E091", ⟨some [c!"where", c!"digest"], some [(c!"en", c!"OCFL Object %s inventory manifest file list for digest %s is not a JSON array")]⟩),
   (c!"E092a", ⟨some [c!"where", c!"digest_algorithm", c!"digest", c!"content_path", c!"content_digest"], some [(c!"en", c!"OCFL Object %s inventory manifest using digest algorithm %s has digest %s for file %s which doesn't match calculated digest %s for that file")]⟩),
   (c!"E092b", ⟨some [c!"where", c!"content_path"], some [(c!"en", c!"OCFL Object %s inventory manifest refers to a file path that is not present in the object (%s)")]⟩),
   (c!"E093a", ⟨some [c!"where", c!"digest_algorithm", c!"digest", c!"content_path", c!"content_digest"], some [(c!"en", c!"OCFL Object %s inventory fixity block for digest algorithm %s has digest %s for file %s which doesn't match calculated digest %s for that file")]⟩),
   (c!"E093b", ⟨some [c!"where", c!"digest_algorithm", c!"digest", c!"content_path"], some [(c!"en", c!"OCFL Object %s inventory fixity block for digest algorithm %s has digest %s for a file %s which does not exist in the object")]⟩),
   (c!"E094", ⟨some [c!"where", c!"version"], some [(c!"en", c!"OCFL Object %s inventory %s version block has message key with value that isn't a string")]⟩),
   (c!"E095a", ⟨some [c!"where", c!"version", c!"path"], some [(c!"en", c!"OCFL Object %s inventory version %s state has logical path %s used more than once")]⟩),
   (c!"E095b", ⟨some [c!"where", c!"version", c!"path"], some [(c!"en", c!"OCFL Object %s inventory version %s state has logical path %s used as both a directory and a file path.")]⟩),
   (c!"E096", ⟨some [c!"where", c!"digest"], some [(c!"en", c!"OCFL Object %s inventory manifest block includes digest %s more than once with different normalizations")]⟩),
   (c!"E097", ⟨some [c!"where", c!"algorithm", c!"digest"], some [(c!"en", c!"OCFL Object %s inventory fixity block for digest algorithm %s, includes digest %s more than once with different normalizations")]⟩),
   (c!"E099", ⟨some [c!"where", c!"path"], some [(c!"en", c!"OCFL Object %s inventory manifest content path %s includes invalid element ., .., or empty (//).")]⟩),
   (c!"E100", ⟨some [c!"where", c!"path"], some [(c!"en", c!"OCFL Object %s inventory manifest content path %s must not begin or end with /.")]⟩),
   (c!"E101a", ⟨some [c!"where", c!"path"], some [(c!"en", c!"OCFL Object %s inventory manifest content path %s is repeated")]⟩),
   (c!"E101b", ⟨some [c!"where", c!"path"], some [(c!"en", c!"OCFL Object %s inventory manifest content path %s used as both a directory and a file path")]⟩),
   (c!"E103", ⟨some [c!"where", c!"this_spec_version", c!"prev_version_dir", c!"prev_spec_version"], some [(c!"en", c!"OCFL Object %s inventory conforms to specification version %s which is an earlier version than the %s inventory which conforms to specification version %s")]⟩),
   (c!"E107", ⟨some [c!"where", c!"digests"], some [(c!"en", c!"OCFL Object %s inventory manifest contains digest(s) (%s) that are not used in the object state")]⟩),
   (c!"E111", ⟨some [c!"where"], some [(c!"en", c!"OCFL Object %s inventory includes a fixity key with value that isn't a JSON object")]⟩),
   (c!"W001", ⟨some [c!"where"], some [(c!"en", c!"OCFL Object %s inventory version numbers SHOULD NOT be zero-padded")]⟩),
   (c!"W002", ⟨some [c!"where", c!"entry"], some [(c!"en", c!"OCFL Object version directory %s SHOULD NOT contain any directory except the designated content directory (found %s)")]⟩),
   (c!"W003", ⟨some [c!"where"], some [(c!"en", c!"OCFL Object version directory %s SHOULD NOT contain an empty content directory")]⟩),
   (c!"W004", ⟨some [c!"where"], some [(c!"en", c!"OCFL Object %s inventory SHOULD use sha512 but uses sha256 as the DigestAlgorithm")]⟩),
   (c!"W005", ⟨some [c!"where", c!"id"], some [(c!"en", c!"OCFL Object %s inventory id SHOULD be a URI (got %s)")]⟩),
   (c!"W007a", ⟨some [c!"where", c!"version"], some [(c!"en", c!"OCFL Object %s inventory %s version block SHOULD include a message key")]⟩),
   (c!"W007b", ⟨some [c!"where", c!"version"], some [(c!"en", c!"OCFL Object %s inventory %s version block SHOULD include a user key")]⟩),
   (c!"W008", ⟨some [c!"where", c!"version"], some [(c!"en", c!"OCFL Object %s inventory %s version block user description SHOULD have an address")]⟩),
   (c!"W009", ⟨some [c!"where", c!"version"], some [(c!"en", c!"OCFL Object %s inventory %s version block user description SHOULD be a mailto: or person identifier URI")]⟩),
   (c!"W010", ⟨some [c!"where"], some [(c!"en", c!"OCFL Object %s SHOULD have an inventory file but does not")]⟩),
   (c!"W011", ⟨some [c!"key", c!"version", c!"prior_head", c!"where"], some [(c!"en", c!"OCFL Object version metadata '%s' for %s in %s inventory does not match that in %s inventory")]⟩),
   (c!"W013", ⟨some [c!"entry"], some [(c!"en", c!"OCFL Object includes unregistered extension directory '%s'")]⟩),
   (c!"W901", ⟨some [c!"entry"], some [(c!"en", c!"OCFL Storage Root includes unregistered extension directory '%s'")]⟩)]

/-- The names of the arguments given with each code, in the calls of `error` and `warning` in
`ocfl/validator.py` and `ocfl/inventory_validator.py` (where `_error` and `_warning`, lines
602-608, add `where`). All calls with the same code give the same names. -/
def argNames : Dict Str (List Str) :=
  [(c!"E001a", [c!"file"]),
   (c!"E001b", [c!"dir"]),
   (c!"E001c", [c!"entry"]),
   (c!"E003a", [c!"assumed_version"]),
   (c!"E003b", [c!"files", c!"using_version"]),
   (c!"E003c", [c!"assumed_version"]),
   (c!"E003e", [c!"path"]),
   (c!"E006", [c!"filename"]),
   (c!"E007", [c!"filename"]),
   (c!"E008", [c!"where"]),
   (c!"E009", [c!"where"]),
   (c!"E010", [c!"where"]),
   (c!"E011", [c!"where"]),
   (c!"E015", [c!"entry", c!"where"]),
   (c!"E017", [c!"where"]),
   (c!"E018", [c!"where"]),
   (c!"E019", [c!"where"]),
   (c!"E020", [c!"root_content_directory", c!"version_content_directory", c!"where"]),
   (c!"E023a", [c!"extra_files", c!"where"]),
   (c!"E023b", [c!"missing_filepaths", c!"where"]),
   (c!"E024", [c!"path", c!"where"]),
   (c!"E025a", [c!"digest_algorithm", c!"where"]),
   (c!"E025b", [c!"algorithm", c!"digest", c!"where"]),
   (c!"E026a", [c!"digest", c!"where"]),
   (c!"E033", [c!"explanation", c!"where"]),
   (c!"E036a", [c!"where"]),
   (c!"E036b", [c!"where"]),
   (c!"E036c", [c!"where"]),
   (c!"E036d", [c!"where"]),
   (c!"E037a", [c!"where"]),
   (c!"E037b", [c!"root_id", c!"version_id", c!"where"]),
   (c!"E038a", [c!"expected", c!"got", c!"where"]),
   (c!"E038b", [c!"assumed_spec_version", c!"got", c!"where"]),
   (c!"E038c", [c!"assumed_spec_version", c!"got", c!"where"]),
   (c!"E038d", [c!"where"]),
   (c!"E040", [c!"expected", c!"got", c!"where"]),
   (c!"E041a", [c!"where"]),
   (c!"E041b", [c!"where"]),
   (c!"E041c", [c!"where"]),
   (c!"E042a", [c!"path", c!"where"]),
   (c!"E042b", [c!"path", c!"where"]),
   (c!"E042c", [c!"content_directory", c!"path", c!"where"]),
   (c!"E044", [c!"where"]),
   (c!"E046a", [c!"version_dir"]),
   (c!"E046b", [c!"dir"]),
   (c!"E048", [c!"version", c!"where"]),
   (c!"E048c", [c!"version", c!"where"]),
   (c!"E049a", [c!"version", c!"where"]),
   (c!"E049b", [c!"version", c!"where"]),
   (c!"E049c", [c!"description", c!"version", c!"where"]),
   (c!"E049d", [c!"version", c!"where"]),
   (c!"E050a", [c!"digests", c!"where"]),
   (c!"E050c", [c!"version", c!"where"]),
   (c!"E050d", [c!"digest", c!"version", c!"where"]),
   (c!"E050e", [c!"digest", c!"version", c!"where"]),
   (c!"E050f", [c!"digest", c!"version", c!"where"]),
   (c!"E052", [c!"path", c!"version", c!"where"]),
   (c!"E053", [c!"path", c!"version", c!"where"]),
   (c!"E054a", [c!"version", c!"where"]),
   (c!"E054b", [c!"version", c!"where"]),
   (c!"E054c", [c!"version", c!"where"]),
   (c!"E056a", [c!"where"]),
   (c!"E056b", [c!"algorithm", c!"where"]),
   (c!"E057a", [c!"algorithm", c!"where"]),
   (c!"E057b", [c!"algorithm", c!"digest", c!"where"]),
   (c!"E057c", [c!"algorithm", c!"digest", c!"where"]),
   (c!"E057d", [c!"algorithm", c!"digest", c!"path", c!"where"]),
   (c!"E058a", [c!"path", c!"where"]),
   (c!"E058b", [c!"inv_digest_file"]),
   (c!"E060", [c!"actual", c!"inv_digest_file", c!"inv_file", c!"recorded"]),
   (c!"E061", [c!"description"]),
   (c!"E063", []),
   (c!"E064", [c!"inv_file", c!"root_inv_file"]),
   (c!"E066a", [c!"prior_head", c!"where"]),
   (c!"E066b", [c!"logical_paths", c!"only_in", c!"prior_head", c!"version", c!"where"]),
   (c!"E066c", [c!"current_content", c!"logical_path", c!"prior_content", c!"prior_head", c!"version", c!"where"]),
   (c!"E066d", [c!"digest", c!"logical_files", c!"prior_head", c!"version", c!"where"]),
   (c!"E066e", [c!"digest", c!"logical_files", c!"prior_head", c!"version", c!"where"]),
   (c!"E067", [c!"entry"]),
   (c!"E092", [c!"digest", c!"where"]),
   (c!"E092a", [c!"content_digest", c!"content_path", c!"digest", c!"digest_algorithm", c!"where"]),
   (c!"E092b", [c!"content_path", c!"where"]),
   (c!"E093a", [c!"content_digest", c!"content_path", c!"digest", c!"digest_algorithm", c!"where"]),
   (c!"E093b", [c!"content_path", c!"digest", c!"digest_algorithm", c!"where"]),
   (c!"E094", [c!"version", c!"where"]),
   (c!"E095a", [c!"path", c!"version", c!"where"]),
   (c!"E095b", [c!"path", c!"version", c!"where"]),
   (c!"E096", [c!"digest", c!"where"]),
   (c!"E097", [c!"algorithm", c!"digest", c!"where"]),
   (c!"E099", [c!"path", c!"where"]),
   (c!"E100", [c!"path", c!"where"]),
   (c!"E101a", [c!"path", c!"where"]),
   (c!"E101b", [c!"path", c!"where"]),
   (c!"E103", [c!"prev_spec_version", c!"prev_version_dir", c!"this_spec_version", c!"where"]),
   (c!"E107", [c!"digests", c!"where"]),
   (c!"E111", [c!"where"]),
   (c!"W001", [c!"where"]),
   (c!"W002", [c!"entry", c!"where"]),
   (c!"W003", [c!"where"]),
   (c!"W004", [c!"where"]),
   (c!"W005", [c!"id", c!"where"]),
   (c!"W007a", [c!"version", c!"where"]),
   (c!"W007b", [c!"version", c!"where"]),
   (c!"W008", [c!"version", c!"where"]),
   (c!"W009", [c!"version", c!"where"]),
   (c!"W010", [c!"where"]),
   (c!"W011", [c!"key", c!"prior_head", c!"version", c!"where"]),
   (c!"W013", [c!"entry"])]

end Messages
end Ocfl
