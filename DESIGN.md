# Formal model of ocfl-py: design

## What this is

`/verif/lean` holds a model of the Python package in `/repo/ocfl`, written in
Lean 4, and machine-checked proofs about it. `properties.jsonl` lists the
properties (C01, C02, ...), `MANIFEST.json` says which theorem proves which
property, `seeded/LOG.jsonl` records deliberate bugs put into a scratch copy of
the model and the theorems that noticed them.

## Conventions

* A Python `str` is a `List Char` (`Str`). Lone surrogates do not exist in the model.
* A Python `dict` with string keys is an insertion-ordered association list
  (`Dict`), with `set` overwriting in place or appending, like CPython.
* A function that can raise returns `Except PyErr α` (`Py α`).
* Everything is a total computable function; loops are structural recursion.
  Where the Python loop is unbounded (`make_unused_filepath`), the model takes
  fuel, and a theorem shows that the fuel given always suffices.
* Regular expressions are modelled by hand-written matchers that follow
  Python's semantics: `$` also matches before one trailing newline, `.` does
  not match a newline, `\d` matches every Unicode decimal digit (a table of
  the digit blocks is in the model), `re.match` is anchored only on the left.
* JSON is an inductive type; `in`, indexing and iteration follow Python's
  behaviour on every JSON type, including the exceptions.
* Digest functions, the JSON text codec and other library code that is not in
  `/repo` are parameters; whatever is assumed of them is a visible hypothesis of
  the theorem. Digest functions are never assumed injective on all byte strings
  (that would be contradictory for a fixed-length digest), only free of
  collisions on the finitely many contents a statement talks about.
* The file system (`Model/FS.lean`) is a finite map from absolute paths (lists of
  names) to files or directories, with the operations make directory, write file
  and remove file, as `fsspec`'s `DirFileSystem` over `LocalFileSystem` performs
  them. No links, permissions, quotas or special files; no S3 and no zip. `..` is
  resolved textually.
* A method that changes the file system is a program (`Model/Prog.lean`): a tree
  of look-ups and single operations. The same program is run to its end (`run`),
  stopped anywhere (`Visits`, with files written in part), or interleaved.

## Layout of the Lean project

* `Verif/Py/*` base library: strings, dictionaries, decimal numbers, JSON.
* `Verif/Model/*` the model, one file per Python module, each definition citing file and lines.
* `Verif/Spec/*` specifications that do not use the model.
* `Verif/Proofs/*` helper lemmas.
* `Verif/Props/*` the property theorems, with non-vacuity examples beside them.

## Plan per property

| Property | Modelled | How |
|---|---|---|
| C01, C02 | `object_utils` version directory functions, character level | decimal arithmetic lemmas, case analysis |
| C03 | `Inventory.add_version`, `_next_version_directory`, `version_directories` | invariant by induction over the number of calls |
| C04 | `make_unused_filepath` with fuel `len(used)+1` | pigeonhole for termination, minimality by induction |
| C05 | `normalized_digest`, `digest_regex` | case analysis per algorithm, list lemmas |
| C06 - C14 | `NewVersion` operations on a typed inventory, digest of a source path a parameter | invariants by induction over operation lists; refinement to a finite map; where the code violates the property: witness + restricted theorem |
| C15 | `diff_with_previous` | equivalence of states as finite maps |
| C16, C17 | look-ups of `Inventory`/`Version` | list induction |
| C18 | `normalize_digests` | loop invariant over the renaming |
| C19 | digest change part of `start_new_version` | loop invariant |
| C20 - C26, C69 | `Object` on a file-system model | lemmas on sequences of writes; induction over histories |
| C24, C65 | `write_new_version` as a list of primitive operations | all prefixes; all interleavings |
| C27, C28 | NewVersion output against the validator model | through the characterisation of the validator |
| C29 - C37 | `InventoryValidator.validate` on arbitrary JSON | equivalence with a declarative predicate |
| C38 | `validate_as_prior_version` | same |
| C39 - C43, C70, C73 | `Validator.validate_object` on the file-system model | same; absence of exceptions step by step |
| C74 | objects made by the library against the object rules | invariant of histories, then C73 |
| C44 | `ValidationLogger` | induction over call lists |
| C45 - C51 | layouts, registry | injectivity proofs on strings |
| C52, C64 | Namaste, `find_path_type` | string lemmas |
| C53 - C56 | `StorageRoot` on the file-system model | induction over trees; equivalence with declarative predicates |
| C75 | `do_validation` of `ocfl-validate.py` | loop invariant, then C55, C64, C73 |
| C57 - C59 | `fsw` | induction over trees, chunk lists |
| C60 | metadata | case analysis |
| C67 | `bagger.py` and the commands that use it, `bagit` as a parameter | through C22, C76 and the histories |
| C76 | metadata of versions | invariant of histories |
| C77 | `add` and validation together | the rules for valid objects depend on files and version directories only |
| C78 | storage roots from `initialize` on | invariant of sequences of operations, then C53, C55, C73, C77 |
| C79 | `_extract_setup`, `extract`, `extract_file`, `open_obj_fs` | case analysis of the programs on any tree of files |
| C80 | `build`, `version_dirs_and_metadata` | invariant of the loop; a further kind of step in histories |
| C81 | `start_new_version`, `first_version`, `add_fixity_type` | the invariant of histories (C13, C66), the exact fixity blocks after a step |
| C82 | `extract`, `add_version_with_content` as two processes | what a step reads and writes (locality), the object at every moment (C24), an invariant of all interleavings |
| C83 | `ocfl-sidecar.py` | induction over the paths; C73 and the rules with another sidecar |
| C84 | `ocfl-object.py`, its arguments and what it prints; `Object.tree` | induction over the session: every command is a step of a dated history, then C74 and the invariant `Sound` |
| C85 | `Object.tree` as text | induction over the entries; the drawing is specified separately by positions; C73 and the invariant `Sound` |
| C86 | `ocfl-root.py`, together with `ocfl-object.py` | induction over the commands, with C78, C84 and C55 for what holds afterwards |
| C87 | `validate_object`, `extract`, `extract_file` on objects of any origin | validity as in C73 gives the inventory, the content files and their digests; extraction of such an inventory succeeds (C22) |
| C88 | every intermediate state (`Visits`) of `create`, `build`, `add_version_with_content`, `StorageRoot.add`; `validate_object`, `extract` | at every moment the root inventory is absent or a first part of the final one; only the whole text parses (`NoPrefix`); a valid object with that inventory has the content of the history, as digests do not collide |
| C89 | `validate_object` with and without `lax_digests` | the two runs are compared step by step: the same value and errors as long as the strict run has made no error, or if the inventories are ordinary |
| C90 | `ValidationLogger.log` with the table of descriptions, the codes and argument names of all calls | a property of log entries carried through every step of both validators; the table is checked once for all codes |
| C91 | `create`, `build`, `add_version_with_content` on two file systems | the new version depends on the files of the source directory only (the list of files is sorted, so two listings of the same files give the same list); what is written is known exactly; induction over both sequences of steps. For `build`: the inventories are determined, and the files of an object by its inventories |
| C92 | `initialize` and `add` in every order, on two file systems | an exact description of the files of the storage root as the union of those that `initialize` writes and those of the objects at their places, kept by every `add`; every directory leads to a file; for other orders: what `add` needs of an object stays true when another one is added beside its place |
| C93 | any family of calls whose steps are mixed (Model/Many.lean), with files written in parts and other processes elsewhere | each call writes only below its own directory and depends only on what is in, above and below the two directories that it works with (a locality property of every function that it calls); an invariant for all mixtures says that every call is where it would be alone on a file system that agrees there |
| C94 | validateObject on two file systems whose object directories have the same contents (Spec/SameContents.lean) | every step does the same in both, up to the order of log entries: the steps that do not list directories are equal; those that do are loops that never stop early, over permuted lists; the files seen are used only through membership |
| C95 | validateObject on two file systems whose object directories agree except inside `logs` and inside the directories of extensions | the proof of C94, with the extra fact that every path looked at is outside: names in the object directory and in `extensions`, and paths below version directories, whose names begin with v |
| C96 | validateObject with both values of `check_digests` | step by step: both do the same, or the first does something whose entries are all about digests and the second nothing; all other steps make no such entries (as for C90) |
| C97 | StorageRoot.validate and list_objects on two file systems | checkStructure, the traversal and each object of two directories with the same contents correspond; the traversals agree up to order, so the counts agree; objects by C94 |
| C98 | validateFull: StorageRoot.validate with its log | the code for each visited directory against a specification of what is wrong (`DirFault`), the codes of the structure against `RootFault`; the traversal visits each directory once |
| C99 | validateFull: the loop of validate_hierarchy with `errors` | the loop is map, filter and take over the reports of the objects; the verdict is whether there are errors among the entries |
| C100 | StorageRoot.validate with the validator | characterisation C55_partial: one declaration for each object, of a supported version; witness for storage roots of version 1.0 |
| C101 | objCalls: an Object with its attributes between calls | simulation: the attributes agree but for two, on which only create and build depend; witnesses for these |
| C102 | rootCalls: a StorageRoot with its attributes between calls | simulation: the attributes that differ hold what the storage root says; witnesses where they do not |
| C103 | setMeta, callAll: assignments between calls on a new version | a change of a block that keeps the state commutes with every call; induction on the sequence |
| C104 | Sharing: dicts with addresses, what is read through an inventory | refinement: as long as no block belongs to two versions, what is read follows the model with values; frame lemmas, induction on the program |
| C105 | Inventories as JSON documents, changed in place | refinement of the record model, one call at a time (`Tracks`, `Agrees`), then induction on the sequence; what is not known is kept (`RestKept`, transitive) |
| C106 | `NewVersion` on an inventory document | refinement of the record model, call by call; induction on the sequence |
| C107 | `InventoryValidator.validate` on two documents | congruence: every part of the validator gives the same for documents that agree on the specified keys; induction on the versions |
| C108 | `Validator.validate_object` before and after an object is taken back to an earlier version; `create`, `add_version_with_content`, `extract` | the rules that validation enforces (C73) are shown for the object taken back from those for the object; for objects made by the library the invariant of histories restricts to an initial part of the history |
| C109 | `validate_as_prior_version` as a relation; `validate_object` | by the specification of prior versions (C38), which composes; induction on series; for objects by the rules that validation enforces (C73) |
| C110 | `find_namastes`, `get_namaste`, `write`, `check_content` without `fsw` | reduced to the functions with `fsw` in the same directory (C52); cases on the file |
| C111 | `add` in new versions of `create`, `build`, `add_version_with_content` | induction over the history and over the calls of `add`: the manifest has one path for each digest; carried to the files and back by the invariant of C22 |
| C112 | `extract` of every version into a directory, then `build` from it | induction over the versions: each extraction leaves the history of the object and the directories made before as they were; the trees below the directories equal those of the history, so that `build` continues it (C22) |
| C113 | `create` | every step is shown to succeed in the state that the steps before it leave; the copies succeed because the queue of the new version has places apart from each other, below a content directory that nothing else uses; reading back is C22 |
| C114 | `build` | as C113, with the invariant of the loop (C80): a round finds its version directory absent, `next_version` never raises for the inventory before it, and the content directory of the object stays that of the settings |
| C115 | `add_version_with_content` | the invariant of the objects that the library makes (`Sound`, C22) gives that validation succeeds (C74), that the inventory is read back, that every digest of the manifest has files that all exist and agree (`history_filled`), so that the digests can be changed, that new content paths are free (C80) and that the version directory is absent; every step of writing is then shown to succeed. The other direction is C66 |
| C116 | `add_version_with_content`, any number of times (`Spec.updateAll`, a client of the library) | induction over the series: each update succeeds (C115), extends the history (C22), keeps the content directory name and the declaration, and changes nothing outside the object (C23), so the remaining sources are as before. Partial: not lax mode, nor content directories called like the inventory or a sidecar, nor sources that contain the object |
| C117 | `create` and then `add_version_with_content`, any number of times (`Spec.life`, a client of the library), `validate`, `extract` | `create` succeeds (C113), makes a sound object with the content directory of the settings, and changes nothing outside it (the frame of `Job.create`); then C116. Partial for the same reasons as C116 |
| C61, C62 | `w3c_datetime` | civil calendar arithmetic |
| C63 | `_map_filepath` with UTF-8 percent quoting | injectivity |
| C66 | spec version flow | invariant / witness |
| C68 | path helpers | string lemmas |

## What is modelled and what is not

Everything in the second column is in `Verif/Model`, with the lines cited at each
definition. Simplifications are stated there too.

| File in `/repo/ocfl` | Modelled | Not modelled |
|---|---|---|
| `object_utils.py` | all functions | |
| `digest.py` | all functions; raw digests are a parameter | |
| `inventory.py` | constructor, look-ups, `add_version`, manifest, fixity and state changes, `normalize_digests`, the properties of `Inventory` and `Version`, reading from and writing to JSON | the setter of `versions_block`; sharing of manifests, states and fixity blocks |
| `new_version.py` | `first_version`, `next_version`, `add`, `delete`, `rename`, `add_from_srcdir`, `diff_with_previous`, path mapping, properties | |
| `inventory_validator.py` | all of `validate` and `validate_as_prior_version` on any JSON value | values put into messages |
| `validator.py` | `validate_object` and everything it calls | values put into messages; `force_spec_version` |
| `validation_logger.py` | counting, logging, lists of codes, message texts and their table | loading of the table |
| `version_metadata.py`, `w3c_datetime.py` | all functions | the current time (parameter) |
| `bagger.py` | all functions; the library `bagit` is a parameter | log levels |
| `object.py` | `create`, `build`, `start_new_version`, `write_new_version`, `add_version_with_content`, `extract`, `extract_file`, `parse_inventory`, `id_from_inventory`, `tree`, writing of inventories, sidecars and declarations; several updates at the same time; several calls on one `Object` | log output, the attribute `obj_fs` |
| `fsw.py` | local paths: open, walk, list, copy file, copy directory, compare | S3, zip and other URLs |
| `namaste.py` | all functions, with and without a file system (`fsw`) | `tr_func` in the branches with `fsw` (the library does not use it) |
| `layout*.py` | all layouts, the registry, configuration files | |
| `storage_root.py` | constructor, `initialize`, `check_root_structure`, `parse_layout_file`, `object_path`, `object_paths`, `list_objects`, `validate` with its log and `errors`, `add`; several calls on one `StorageRoot` | texts of messages, `layout_description` |
| `command_line_utils.py`, scripts | `validate_object`, `validate_object_inventory`, `ocfl-validate.py` (exit status), `ocfl-sidecar.py`, `ocfl-object.py` and `ocfl-root.py` (all commands and what they print) | parsing of arguments, logging; the scripts for developers (`extract_codes.py`, `compactify_spec_examples.py`) |

Lax digests are modelled in the inventory validator and in the object validator. The theorems on
object validation (C39 - C43, C70, C73) are about the default setting; C89 says that the option
makes no difference unless an inventory uses other algorithms, and carries C39, C70 and C73 over.

## Trusted base

Lean's kernel; the axioms `propext`, `Classical.choice`, `Quot.sound` (no
others; nothing is proved by compiled evaluation); the correspondence of the model with the Python source,
which is by reading (each model definition cites the lines).

Library code that is not in `/repo` enters as a parameter. The laws assumed of it,
each a hypothesis that is visible in the theorems that need it:

* `JsonLib.Lawful`: what `json.dumps` writes, `json.loads` and `json.load` read back;
  the text has no carriage return; what is read has no key twice in one object.
  `pyJson`, an implementation in the model, satisfies all of it (`pyJson_lawful`).
* `JsonLib.NoPrefix` (C82 only): no proper first part of the text of a JSON object is read as
  a document. `pyJson` satisfies it (`pyJson_noPrefix`).
* `HashLib`: a raw digest has the length of its algorithm and consists of small
  hexadecimal digits. `demoRaw` satisfies it.
* `WordClass`: of the ASCII characters exactly the letters, the digits and the underscore belong to `\w`.
* `BagitLaws`: `bagit.make_bag` moves the files of a directory to `data` and changes
  nothing outside; from the bag the tags can be read that were given, if each fits
  into one line. `plainBagit` satisfies it.
* `NoCollision`: different files that a statement speaks of have different digests.
* `same` in C38 and in the validator: Python's `==`; assumed to compare strings as
  strings.

## Where the code disagrees with a property

Each entry is proved in Lean with a concrete witness; the manifest lists the
property as `partial` with the restricted theorem.

* C10: `NewVersion.rename` of a file added in the same version removes the
  file's content path from the manifest (`C10_violated`). `C10_rename_exact`
  says exactly which renames do that.
* C11: `files_to_copy` is keyed by source path, is not cleaned by `delete`, and
  content paths freed by `delete` are used again (`C11_violated`, three parts).
* C12: an absolute source path, or an absolute `contentDirectory`, leads out of
  the version directory because of `os.path.join` (`C12_violated`).
* C13: as first written the property said that with dedupe off every add makes
  its own content path. With forward delta on and content that exists only in an
  earlier version it does not; the statement now excludes forward delta.
* C18: two spellings of one digest in a manifest make `normalize_digests` lose
  content paths (`C18_needs_distinct`).
* C71: the digests computed for `sha512-spec-ex` never match the pattern for
  that algorithm (`C71_violated`).
* C62: `str_to_datetime` adds the time zone offset where it must be subtracted,
  so every time stamp with a non-zero offset is wrong by twice the offset
  (`C62_violated`).
* C30: the pattern for `type` is not anchored at the end and its periods match
  any character (`C30_type_unchecked`); an empty `contentDirectory` is accepted
  with an empty manifest (`C30_empty_contentDirectory`).
* C31, C72: `$` in the patterns lets a newline at the end pass (`C31_newline`,
  `C72_newline`).
* C32: the pattern for content paths reads up to a newline, what follows is not
  checked (`C32_newline`: a validated inventory can name a file outside of the
  object).
* C33: a path is only compared with the directory another path lies in, not with
  directories further up (`C33_deep_conflict`).
* C35: a path may be listed twice for one algorithm (`C35_path_twice`).
* C36: the validator raises for documents that are not objects, states without a
  manifest, version blocks that are not objects, paths that are not strings, and
  with lax digests for an algorithm that cannot be hashed (`C36_raises_*`).
* C47: the flat quoted layout maps `.` and `..` to themselves (`C47_violated`).
* C48: with the tuple tree layout one object can lie inside another
  (`C48_violated`, `C48_partial` says exactly when).
* C49: the UUID layout overlooks a final newline and takes digits of other
  scripts (`C49_violated`).
* C51: the tuple tree layout declares a name that is not registered
  (`C51_violated`).
* C50: holds for storage roots without a configuration file for the layout; a
  flat layout cannot be opened where there is one (`AttributeError`,
  `C50_no_params`).
* C52: blank content and content with a carriage return before a line feed do
  not survive (`C52_violated`).
* C64: with several declarations the type is that of the first that fits, and
  with more than ten an exception leaves the function (`C64_violated`).
* C56: `check_spec_version` replaces an earlier version instead of refusing a
  conflicting one, and fails without argument once a version is set
  (`C56_violated`).
* C68: `strip_root` compares characters, so a sibling of the root whose name
  begins with that of the root is not refused; for the root `/` the result is
  relative to the current directory (`C68_violated`).
* C20: an inventory may list logical paths of which one is a directory of another
  and content paths with a newline; extraction then fails or reads elsewhere.
  `C20_partial` has the exact conditions.
* C23: `add` takes an explicit content path that begins with the directory of the
  new version but climbs out of it with `..`; `write_new_version` then writes over
  a file of an earlier version and reports success (`C23_violated`).
* C19: with a change of the digest algorithm, two entries of the manifest whose
  first files are alike become one entry, and the content paths of one of them are
  lost (`C19_violated`); an entry without paths raises an exception.
* C27: inventories made by `create` are refused by the validator for a file name
  that starts with a newline (without normalisation), a content directory that is
  not a name, and all digest algorithms other than SHA-512 and SHA-256
  (`C27_violated_*`); also without metadata and for a source without files.
* C21: in the same cases the object is made but cannot be extracted
  (`C21_violated`, `C21_violated_*`).
* C22: an update with another digest algorithm, such as MD5, succeeds; after that
  no version of the object can be extracted (`C22_violated`).
* C28: digests in capital letters are valid, but an update rewrites them in small
  letters while the check against the prior version compares them as they are, so
  a valid object stops being valid (`C28_violated`).
* C24: if the update changes the digest algorithm, `write_new_version` removes the
  old root sidecar before anything else, so for most of the update the old root
  inventory has no sidecar (`C24_violated`). The content is complete all the same
  and every earlier version can be extracted (`C24_extract`, `C24_history`).
* C26: where two digests of the manifest stand for the same content, an update that
  changes the digest algorithm merges them and finds a difference that is not there:
  extracting the head gives the source tree, and a version is added (`C26_violated`).
* C25: the sidecar is named after the algorithm of the `Object`, not after that of the
  inventory; with `start_new_version(digest_algorithm=...)` they may differ, and the
  updated object is not valid (`C25_violated`). The reader refuses abbreviated digests
  (`C25_violated_specEx`), and the validator does not find the name of an algorithm
  with a hyphen, so that no object with a BLAKE2 digest is ever valid (`C25_hyphen`).
* C39: without digest checking, a content directory with the name of a sidecar is
  taken for the sidecar and the files in it go unnoticed (`C39_violated`).
* C41: the last version need not have an inventory (only a warning), and its sidecar
  may have other blanks than that in the root (`C41_violated`,
  `C41_violated_sidecar`).
* C43: the log is not cleared between objects, so after one invalid object a
  `Validator` reports every object invalid (`C43_violated`, `C43_sticky`).
* C66: an update names version 1.1 in the inventory whatever the object declares, and
  the declaration stays. An object created with version 1.0 is not valid any more
  after its second update, and cannot be updated again (`C66_broken`,
  `C66_violated`).
* C70: an exception leaves `validate_object` for more than ten declarations, a
  declaration, inventory or sidecar that is a directory, an inventory that is not
  UTF-8, a fixity block without manifest, and an earlier inventory without state or with
  an unknown fixity algorithm (`C70_violated_*`).
* C53: the name of an object declaration may go on after the version
  (`C53_violated`, `C53_exact` has what is listed); listing a storage root with an
  extension directory that is not registered raises, also in a root that the library
  itself has made with the layout for UUIDs (`C53_violated_extension`).
* C54: with the flat layout an object with the identifier `extensions` is added and
  never listed (`C54_violated`). `C54_partial` has the exact condition for an added
  object to be listed.
* C77: a valid object whose last version has an empty directory (no new content, and no
  inventory, which is only a warning) is not valid any more where `add` has copied it
  to, as empty directories are not copied (`C77_violated`).
* C78: the tuple tree layout is registered as `nnnn-tuple-tree` and writes
  `nnnn-tuple-tree-layout` into the layout file, so a storage root made with it can never be
  opened (`C78_violated`). With the flat layout, an object with an identifier that begins
  with `0=` is taken for a second declaration, so that after adding it the storage root cannot
  be opened any more (`C78_violated_declaration`).
* C80: `build` puts the inventory of a version into a directory with the name of the source
  directory and its content into `v<number>`, so that with `v02` the object is not valid
  (`C80_violated`). Only `v1` is taken for a first version; with `v01` `AttributeError` is
  raised (`C80_violated_first`). Without version directories an object with a
  declaration and nothing else is left (`C80_violated_empty`).
* C79: `_extract_setup` is documented to raise `ObjectException` if the inventory cannot be
  parsed, but a missing inventory gives `FileNotFoundError` and a file that is not JSON
  gives `JSONDecodeError`; a destination that is a file gives `FileExistsError`
  (`C79_violated`).
* C81: the setting `fixity` is documented as the set of fixity digest types to be added for
  all content files, but `add_fixity_data` is never called: the blocks of a new object are
  empty, and updates add nothing to them (`C81_violated`, `C81_violated_update`).
* C55: `StorageRoot.validate` returns `True` although objects are not valid; only
  `good_objects` shows it, and `ocfl-validate.py` ends with exit status 0
  (`C55_violated`, `C55_violated_command`). `C55_result` says what the result means.
* C82: the root inventory is overwritten in place, so that an extraction at the same time may
  find a first part of it and raise `JSONDecodeError` (`C82_violated`).
* C83: `ocfl-sidecar.py` says that the algorithm is taken from the inventory, but
  `parse_inventory` does not set `digest_algorithm`, so that SHA-512 is used whenever `--digest` is not
  given. A valid object with SHA-256 gets a second sidecar and is invalid (`C83_spoils`).
* C84: `ocfl-object.py create --address A` without `--name` ends with status 0 and leaves an object that is
  not valid and cannot be updated (`C84_violated`). `ocfl-object.py validate` ends with status 0 whatever it
  says (`C84_violated_status`). `ocfl-object.py update` takes `--digest sha512` as default and thereby changes
  the algorithm of a SHA-256 object (`C84_violated_digest`). `--skip` is accepted and never used.
* C85: `tree` marks the directory `extensions` of a valid object as unknown (`C85_violated`). In version
  directories `seen_v_sidecar` is only set where it is already set, so that a second sidecar is never marked
  there (`C85_violated_marks`). Versions are shown in the order of strings, `v10` before `v2`.
* C86: `ocfl-root.py validate` ends with status 0 also if it says INVALID (`C86_violated_status`);
  `--max_errors` is given as a string and raises `TypeError` as soon as an object was validated
  (`C86_violated_errors`). `show` looks for the object relative to the working directory and not to the root
  (`C86_violated_show`). `path --layout` takes the given layout, whatever the layout of the root
  (`C86_violated_layout`). `purge` is not implemented and ends with status 0, and `validate-object` raises
  `AttributeError` before it does anything (`C86_violated_commands`).
* C87: validation accepts two logical paths of which one is a directory of the other at two levels or more
  (`g` and `g/d/h`, see C33); such a version cannot be extracted (`C87_violated_nested`). It also accepts
  `v000001`, which `parse_inventory` refuses (`C87_violated_number`).
* C88: `create` writes inventories and sidecars first and copies the content last. If it is interrupted while it
  copies the last file, the object passes validation without digest checking, and extracting it gives a file
  that is cut short (`C88_violated_unchecked`). Updates copy the
  content first, and `build` writes the root inventory last; they do not have this problem.
* C89: nothing is wrong with the option itself; but with it a `digestAlgorithm` that is not a string gets as far
  as the name of the sidecar, and the validator raises `TypeError` (`C70_violated_lax`).
* C90: `E092` (a manifest entry that is not a list; the table has `E091` for it) and `E011` (too many versions for
  zero-padded names) have no description, so that the message is `Unknown error: ...` (`C90_violated`,
  `C90_violated_padding`). The descriptions of `E052` and `E053` are exchanged (`C90_exchanged`). For storage roots
  `E069c` is logged with the arguments of `E069d`, and `E070b` and `E070c` do not fit their parameters, so that
  messages contain `???` or `%s` (`C90_violated_root`).
* C92: an object with the identifier `0=x` can be added after another object, but not before it
  (`C92_violated`).
- With lax digests the name of the sidecar file is made from an unrestricted `digestAlgorithm` (`ocfl/validator.py` line 219). A value
  such as `/../../x` leads out of the object, so that the report depends on what is beside it (`C94_violated`);
  `/../logs/x` makes it depend on a file in `logs` (`C95_violated`).
- C100: the version of an object is never compared with that of the storage root (E081, a FIXME in `validate_hierarchy`): `add` puts an object of version 1.1 into a storage root of version 1.0 and `validate` finds it valid (`C100_violated`).
- C101: `parse_inventory` and `tree` overwrite settings of the `Object`: after it has extracted an object of version 1.0, `create` makes objects of version 1.0 (`C101_violated`); after `tree`, with the content directory of the object shown (`C101_violated_tree`).
- C102: `num_traversal_errors` is never reset, so after one storage root with errors `validate` of the same `StorageRoot` is false for ever (`C102_violated`); after `object_path` has used a layout given by name, `add` follows it against the storage root's own layout file (`C102_violated_layout`); `list_objects` raises `AttributeError` because of an unregistered extension unless `validate` was called before (`C102_violated_log`).
- C103: `inv.version("v9").created = ...` for a version that does not exist changes nothing and raises nothing, `user_name` and `user_address` raise `KeyError` (`C103_lost`).
- C104: `Inventory(data)` documents a deep copy but keeps a `dict` given to it (`C104_violated_dict`); `add_version(metadata=d, state=s)` stores `s` in `d`, so a `dict` used twice overwrites the state of the earlier version (`C104_violated_metadata`).
- C105: `add_version(vdir)` with the name of a version that is there replaces it without an exception (`C105_violated_replaced`).
- C107: the inventory validator never reports keys that are not specified (E102 of the specification is not implemented; `C107_further_key`, `C107_violated_unspecified`).
- C108: of the inventories of earlier versions the validator does not check that they are those of the versions in whose directories they are (`C108_violated_head`), nor that their manifests list the content files of their versions: content added later to the directory of an earlier version goes unnoticed if the root inventory lists it there (`C108_violated`). If the digest algorithm changes, digests of earlier inventories are compared with those of the root inventory only.
- C109: if the digest algorithm is changed and changed back, the digests before and after are not compared through the inventory between, so that being a prior version is not transitive (`C109_violated`).
- C110: `get_namaste` and `find_namastes` raise `FileNotFoundError` for their default argument `dir=""` without `fsw`, although `write` with the same default writes into the working directory (`C110_violated_default`).
- C113: an `Object` accepts `inventory.json` (or the name of the sidecar) as content directory; `create` then writes the declaration and the inventories and raises when it copies the first file, since `v1/inventory.json` is a file (`ocfl/object.py` 364-371). What is left looks like an object without its content.
- C114: `build` makes the object directory before it opens the source directory (`ocfl/object.py` 288-291): with a wrong `srcdir` it raises and leaves an empty directory. `create` checks the source first.
- C115: `write_new_version` removes the old root sidecar before it copies the content (`ocfl/object.py` 527-530). If the digest algorithm changes and the source directory contains the object, the sidecar is also a source file: the copy raises, and the object is left without a sidecar and with a version directory that its inventory does not know (`C115_violated`).
* C65: with `makedir` as it is, first a look and then the creation, two updates of an
  object may both complete and leave an invalid object (`C65_violated`). Even with
  atomic creation of directories, an update that comes too late and changes the digest
  algorithm removes the root sidecar before it fails (`C65_loser`).
* C67: an update takes a bag that names another object (`C67_violated_update`; creation
  does refuse it, `C67_refuses`). An address that is not an e-mail address does not
  go into the bag (`C67_violated_address`); neither do an empty message or name.
