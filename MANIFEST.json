{
 "claims": [
  {
   "property": "C01",
   "status": "proved",
   "theorems": [
    "Ocfl.C01_next_version_directory",
    "Ocfl.C01_next_unpadded",
    "Ocfl.C01_next_padded",
    "Ocfl.C01_parse_next",
    "Ocfl.C01_parse_next_limit"
   ],
   "note": ""
  },
  {
   "property": "C02",
   "status": "proved",
   "theorems": [
    "Ocfl.C02_parse_version_directory",
    "Ocfl.C02_parse_version_directory_refuses",
    "Ocfl.C02_first_version_directory"
   ],
   "note": ""
  },
  {
   "property": "C03",
   "status": "proved",
   "theorems": [
    "Ocfl.C03_add_versions",
    "Ocfl.C03_overflow"
   ],
   "note": ""
  },
  {
   "property": "C04",
   "status": "proved",
   "theorems": [
    "Ocfl.C04_make_unused_filepath"
   ],
   "note": ""
  },
  {
   "property": "C05",
   "status": "proved",
   "theorems": [
    "Ocfl.C05_idempotent",
    "Ocfl.C05_identifies",
    "Ocfl.C05_case_sensitive",
    "Ocfl.C05_well_formed"
   ],
   "note": "str.lower is modelled on ASCII letters"
  },
  {
   "property": "C06",
   "status": "proved",
   "theorems": [
    "Ocfl.C06_content_paths_unique"
   ],
   "note": ""
  },
  {
   "property": "C07",
   "status": "proved",
   "theorems": [
    "Ocfl.C07_step",
    "Ocfl.C07_run",
    "Ocfl.C07_refusal",
    "Ocfl.firstVersion_building",
    "Ocfl.nextVersion_building"
   ],
   "note": ""
  },
  {
   "property": "C08",
   "status": "proved",
   "theorems": [
    "Ocfl.C08_refused_call_changes_nothing"
   ],
   "note": ""
  },
  {
   "property": "C09",
   "status": "proved",
   "theorems": [
    "Ocfl.C09_earlier_versions_untouched"
   ],
   "note": ""
  },
  {
   "property": "C10",
   "status": "partial",
   "theorems": [
    "Ocfl.C10_has_content_partial",
    "Ocfl.C10_rename_exact",
    "Ocfl.C10_violated"
   ],
   "note": "The code violates the property: renaming a file that was added in the same version drops its content path (C10_violated). Proved for call sequences without such a rename; C10_rename_exact says exactly which renames break it."
  },
  {
   "property": "C100",
   "status": "partial",
   "theorems": [
    "Ocfl.C100_partial",
    "Ocfl.C100_violated"
   ],
   "note": "False of the code for storage roots of version 1.0: the check is a FIXME in validate_hierarchy. C100_violated: add puts an object of version 1.1 into a storage root of version 1.0 made by the library, and validate finds everything valid. C100_partial: for every other storage root it holds."
  },
  {
   "property": "C101",
   "status": "partial",
   "theorems": [
    "Ocfl.C101_partial",
    "Ocfl.C101_attributes",
    "Ocfl.C101_violated",
    "Ocfl.C101_violated_tree"
   ],
   "note": "Holds if no object is made (create, build) after one was read (C101_partial); spec_version and content_directory are the only attributes that ever change (C101_attributes). Otherwise false: parse_inventory overwrites spec_version, so an Object for version 1.1 creates an object of version 1.0 after it has extracted one (C101_violated), and tree overwrites content_directory (C101_violated_tree). The attribute obj_fs is not modelled; calls are given the directory of the object."
  },
  {
   "property": "C102",
   "status": "partial",
   "theorems": [
    "Ocfl.C102_partial",
    "Ocfl.C102_violated",
    "Ocfl.C102_violated_layout",
    "Ocfl.C102_violated_log"
   ],
   "note": "Holds for a StorageRoot made without a layout name, if each call finds a storage root with the same version and layout in which the traversal has nothing to remark on (C102_partial). Otherwise false: errors of a traversal are counted on and on, so validate rejects storage roots in order (C102_violated); a layout given by name stays in use after object_path, so that add puts objects into the wrong place (C102_violated_layout); list_objects raises because of an extension only if validate was not called before (C102_violated_log)."
  },
  {
   "property": "C103",
   "status": "proved",
   "theorems": [
    "Ocfl.C103",
    "Ocfl.C103_read",
    "Ocfl.C103_first",
    "Ocfl.C103_next",
    "Ocfl.C103_lost"
   ],
   "note": "C103: the exact inventory and outcomes; C103_read: what the properties then give; C103_first, C103_next: the same as metadata given at the start (with a time of creation that is not empty, since as_dict fills in the current time otherwise). C103_lost: on a Version that does not exist, assignments are lost (created, message) or raise KeyError. Values are strings."
  },
  {
   "property": "C104",
   "status": "partial",
   "theorems": [
    "Ocfl.C104_partial",
    "Ocfl.C104_call",
    "Ocfl.C104_copy",
    "Ocfl.C104_violated_dict",
    "Ocfl.C104_violated_metadata"
   ],
   "note": "Proved if each dict with metadata is used for one version and no two inventories are made from one dict; an Inventory made from an Inventory is separate from it (C104_copy). Otherwise false: Inventory(data) keeps a dict given to it, although its documentation says that it is copied (C104_violated_dict), and a dict used as metadata of two versions makes the state of the second the state of the first (C104_violated_metadata). Only the dict of an inventory and the blocks of versions have addresses in the model; manifest, fixity and states are values."
  },
  {
   "property": "C105",
   "status": "partial",
   "theorems": [
    "Ocfl.C105_calls_on_the_document",
    "Ocfl.C105_rest_kept_partial",
    "Ocfl.C105_next_is_new",
    "Ocfl.C105_violated_replaced"
   ],
   "note": "C105_calls_on_the_document is a refinement: on the document itself the calls do what the record model used for the other properties says, with the same results and exceptions. The rest is kept unless add_version is given the name of a version that is there, which replaces its block without an exception (C105_violated_replaced). Not included: assignments to versions_block and init_manifest_and_versions, which replace all versions."
  },
  {
   "property": "C106",
   "status": "proved",
   "theorems": [
    "Ocfl.C106_new_version_keeps",
    "Ocfl.C106_refused"
   ],
   "note": "Refinement of the record model by the model on documents, then induction on the sequence of calls."
  },
  {
   "property": "C107",
   "status": "partial",
   "theorems": [
    "Ocfl.C107_only_specified_keys",
    "Ocfl.C107_further_key",
    "Ocfl.C107_violated_unspecified"
   ],
   "note": "The second half is proved for all documents (C107_only_specified_keys). The first half is false, and by the same theorem always: keys that are not specified are never noticed (C107_further_key for any key and value; C107_violated_unspecified for a document that is accepted with such keys at all three places)."
  },
  {
   "property": "C108",
   "status": "partial",
   "theorems": [
    "Ocfl.C108_partial",
    "Ocfl.C108_history",
    "Ocfl.C108_violated",
    "Ocfl.C108_violated_head"
   ],
   "note": "Proved without conditions for objects made by the library that are valid (C108_history). For arbitrary valid objects it is false: content may have been added to the directory of an earlier version (C108_violated), and the inventory of a version may be that of another one (C108_violated_head). C108_partial proves it for arbitrary valid objects if this has not happened, all inventories up to that version use the algorithm of the root inventory, and the content directory is not given only in the earlier inventory."
  },
  {
   "property": "C109",
   "status": "partial",
   "theorems": [
    "Ocfl.C109_asymmetric",
    "Ocfl.C109_partial",
    "Ocfl.C109_series",
    "Ocfl.C109_object",
    "Ocfl.C109_violated"
   ],
   "note": "Irreflexive and asymmetric always (C109_asymmetric). Transitive except if the first and the third inventory have the same digest algorithm and the one between another (C109_partial, C109_series); in that case it is false (C109_violated). Within valid objects proved for inventories that are those of their versions and have the algorithm of the root inventory (C109_object)."
  },
  {
   "property": "C11",
   "status": "partial",
   "theorems": [
    "Ocfl.C11_queue_partial",
    "Ocfl.C11_violated"
   ],
   "note": "The code violates the property in three ways (C11_violated). Proved under the condition QueueSafe before each call."
  },
  {
   "property": "C110",
   "status": "partial",
   "theorems": [
    "Ocfl.C110_get",
    "Ocfl.C110_check",
    "Ocfl.C110_partial",
    "Ocfl.C110_violated_default"
   ],
   "note": "get_namaste is characterised for every directory (C110_get). content_ok gives a verdict unless the file is not UTF-8 text, then it raises (C110_check). Writing and finding again is proved for contents that are not blank and have no carriage return before a newline (C110_partial; C52_violated has the exceptions). False for the default dir: os.listdir of an empty path raises FileNotFoundError (C110_violated_default)."
  },
  {
   "property": "C111",
   "status": "proved",
   "theorems": [
    "Ocfl.C111"
   ],
   "note": "ThriftyHistory is History with the two settings on. No collision of digests among the contents is assumed. An example shows that without forward_delta the content is stored again."
  },
  {
   "property": "C112",
   "status": "proved",
   "theorems": [
    "Ocfl.C112",
    "Ocfl.C112_again"
   ],
   "note": "takeApart is a client program of extract calls. No collision of digests is assumed, and that the names are allowed by the normalisation of the second object. C112 is for any settings and assumes that build returns; C112_again shows that it does, unless the content directory is called like the inventory or the sidecar (C114)."
  },
  {
   "property": "C113",
   "status": "partial",
   "theorems": [
    "Ocfl.C113_partial",
    "Ocfl.C113_refuses",
    "Ocfl.C113_violated"
   ],
   "note": "Full success direction, except for content directories called inventory.json or inventory.json.<algorithm>, for which create raises in the middle (C113_violated)."
  },
  {
   "property": "C114",
   "status": "partial",
   "theorems": [
    "Ocfl.C114_partial",
    "Ocfl.C114_refuses",
    "Ocfl.C114_source",
    "Ocfl.C114_violated"
   ],
   "note": "Full success direction, except for content directories called inventory.json or inventory.json.<algorithm> (C114_violated). A missing source directory is only noticed after the object directory was made (C114_source)."
  },
  {
   "property": "C115",
   "status": "partial",
   "theorems": [
    "Ocfl.C115_partial",
    "Ocfl.C115_abort",
    "Ocfl.C115_violated"
   ],
   "note": "Both directions for updates from a source directory, not in lax mode, with or without a change of the digest algorithm. If the algorithm changes, the source directory must not contain the object: C115_violated is an update that raises after it removed the root sidecar. Missing: lax mode, and content directories called inventory.json or inventory.json.<algorithm>."
  },
  {
   "property": "C116",
   "status": "partial",
   "theorems": [
    "Ocfl.C116_partial"
   ],
   "note": "By induction over the series. Missing: lax mode, content directories called inventory.json or like a sidecar, sources that contain the object. Assumes that the digests of the files involved do not collide. Objects that declare version 1.0 cannot be updated beyond version 3 (C66_violated)."
  },
  {
   "property": "C117",
   "status": "partial",
   "theorems": [
    "Ocfl.C117_partial"
   ],
   "note": "No hypothesis about earlier states of the object: everything follows from the file system before create. Missing: lax mode, content directories called inventory.json or like a sidecar, sources that contain the object. Assumes that the digests of the files involved do not collide. For version 1.0 the claim is false (C66_violated), and for a first version without files as well (C21_violated_empty)."
  },
  {
   "property": "C12",
   "status": "partial",
   "theorems": [
    "Ocfl.C12_new_content_in_content_directory_partial",
    "Ocfl.C12_violated"
   ],
   "note": "The code violates the property for an absolute source path without content path normalisation and for an absolute content directory (C12_violated). Proved otherwise."
  },
  {
   "property": "C13",
   "status": "proved",
   "theorems": [
    "Ocfl.C13_dedupe",
    "Ocfl.C13_no_dedupe"
   ],
   "note": ""
  },
  {
   "property": "C14",
   "status": "proved",
   "theorems": [
    "Ocfl.C14_forward_delta",
    "Ocfl.C14_no_forward_delta"
   ],
   "note": ""
  },
  {
   "property": "C15",
   "status": "proved",
   "theorems": [
    "Ocfl.C15_diff_with_previous"
   ],
   "note": ""
  },
  {
   "property": "C16",
   "status": "proved",
   "theorems": [
    "Ocfl.C16_find_logical_path"
   ],
   "note": ""
  },
  {
   "property": "C17",
   "status": "proved",
   "theorems": [
    "Ocfl.C17_content_lookups",
    "Ocfl.C17_content_path_for_logical_path"
   ],
   "note": ""
  },
  {
   "property": "C18",
   "status": "proved",
   "theorems": [
    "Ocfl.C18_normalize_digests",
    "Ocfl.C18_needs_distinct"
   ],
   "note": "For digests distinct up to case; C18_needs_distinct shows that this is needed."
  },
  {
   "property": "C19",
   "status": "partial",
   "theorems": [
    "Ocfl.C19_partial",
    "Ocfl.C19_refuses",
    "Ocfl.C19_violated"
   ],
   "note": "Mapping of logical to content paths is preserved for every version, when files under different digests of the manifest have different new digests; refusal proved. Fails (witness) if two manifest entries have identical stored files: paths of one are lost."
  },
  {
   "property": "C20",
   "status": "partial",
   "theorems": [
    "Ocfl.C20_partial",
    "Ocfl.C20_untouched",
    "Ocfl.C20_refuses",
    "Ocfl.C20_succeeds",
    "Ocfl.C20_inside"
   ],
   "note": "Exactness of a successful extraction, refusal of a non-empty destination and no change outside the destination at any moment, for every object whose inventory is accepted. Assumes that the destination is not inside the object (C20_inside: the object changes then) and that content paths are relative paths (an accepted inventory may list a content path with a newline that leaves the object)."
  },
  {
   "property": "C21",
   "status": "partial",
   "theorems": [
    "Ocfl.C21_partial",
    "Ocfl.C21_violated",
    "Ocfl.C21_violated_metadata",
    "Ocfl.C21_violated_empty",
    "Ocfl.C21_violated_newline"
   ],
   "note": "Extraction succeeds and gives exactly the source tree, for every normalisation, dedupe and forward-delta setting and every hash without a collision on the files. Missing because false: digest algorithms other than SHA-512 and SHA-256, missing metadata, sources without files, names with newlines when paths are not normalised."
  },
  {
   "property": "C22",
   "status": "partial",
   "theorems": [
    "Ocfl.C22_partial",
    "Ocfl.C22_violated"
   ],
   "note": "By induction over histories of any length (at most 99999 versions, the limit of the version naming), settings may change from step to step, also the algorithm among SHA-512 and SHA-256. Missing because false: updates with other algorithms."
  },
  {
   "property": "C23",
   "status": "partial",
   "theorems": [
    "Ocfl.C23_partial",
    "Ocfl.C23_update",
    "Ocfl.C23_violated"
   ],
   "note": "C23_update: holds at every moment of add_version_with_content. C23_partial: holds for start_new_version, any calls with plain source and content paths, write_new_version. C23_violated: an explicit content path with .. that starts with the right directory overwrites a file of an earlier version."
  },
  {
   "property": "C24",
   "status": "partial",
   "theorems": [
    "Ocfl.C24_partial",
    "Ocfl.C24_update",
    "Ocfl.C24_extract",
    "Ocfl.C24_history",
    "Ocfl.C24_violated"
   ],
   "note": "Every moment of every update, also in the middle of writing a file. Missing: if the algorithm changes the old inventory loses its sidecar first (C24_violated); explicit content paths with .. (see C23). For the moments of create see C88_create."
  },
  {
   "property": "C25",
   "status": "partial",
   "theorems": [
    "Ocfl.C25_partial",
    "Ocfl.C25_update",
    "Ocfl.C25_hyphen",
    "Ocfl.C25_violated",
    "Ocfl.C25_violated_specEx"
   ],
   "note": "For every inventory that declares the algorithm of the Object and every algorithm with hexadecimal digests; C25_update: always so after add_version_with_content. False if the algorithms differ and for abbreviated digests."
  },
  {
   "property": "C26",
   "status": "partial",
   "theorems": [
    "Ocfl.C26_partial",
    "Ocfl.C26_history",
    "Ocfl.C26_violated"
   ],
   "note": "For every object and source tree, if the algorithm stays: None exactly if the logical paths and digests are those of the head, and then the state is unchanged; otherwise a new version directory appears. If the algorithm changes, the digests of the stored files under the new algorithm are compared; missing: manifests in which two digests stand for content with the same new digest, where the claim is false (C26_violated). C26_history: for all objects made by create and updates, in terms of the file trees."
  },
  {
   "property": "C27",
   "status": "partial",
   "theorems": [
    "Ocfl.C27_partial",
    "Ocfl.C27_violated_newline",
    "Ocfl.C27_violated_contentDirectory",
    "Ocfl.C27_violated_algorithm"
   ],
   "note": "Proved for every source tree with a file, good settings (SHA-512/256) and metadata with a time stamp. Fails (witnesses) for names beginning with a newline without normalisation, a content directory that is not a name, and other digest algorithms."
  },
  {
   "property": "C28",
   "status": "partial",
   "theorems": [
    "Ocfl.C28_partial",
    "Ocfl.C28_step",
    "Ocfl.C28_history",
    "Ocfl.C28_violated"
   ],
   "note": "C28_history: objects made by the library, with changes of the algorithm. C28_partial: any object whose inventory has digests in small letters, algorithm kept. C28_step: one update, algorithm may change. Missing because false: digests in capital letters. Missing: a chain with changes of the algorithm on an object whose manifest digests may be wrong."
  },
  {
   "property": "C29",
   "status": "proved",
   "theorems": [
    "Ocfl.C29",
    "Ocfl.C29_head"
   ],
   "note": ""
  },
  {
   "property": "C30",
   "status": "partial",
   "theorems": [
    "Ocfl.C30_partial",
    "Ocfl.C30_type_unchecked",
    "Ocfl.C30_empty_contentDirectory"
   ],
   "note": "The code violates the property: without a forced version the type is only matched as a prefix with '.' as wildcard, and an empty contentDirectory passes; both shown by witnesses."
  },
  {
   "property": "C31",
   "status": "partial",
   "theorems": [
    "Ocfl.C31_partial",
    "Ocfl.C31_newline"
   ],
   "note": "The code accepts a digest followed by a newline ($ in the patterns); everything else is proved."
  },
  {
   "property": "C32",
   "status": "partial",
   "theorems": [
    "Ocfl.C32_partial",
    "Ocfl.C32_newline"
   ],
   "note": "Proved for content paths without a newline and all logical paths; a content path with a newline escapes the check, shown by a witness."
  },
  {
   "property": "C33",
   "status": "partial",
   "theorems": [
    "Ocfl.C33_partial",
    "Ocfl.C33_deep_conflict"
   ],
   "note": "The code only compares a path with the directory the other path lies in; deeper conflicts are accepted, shown by a witness."
  },
  {
   "property": "C34",
   "status": "proved",
   "theorems": [
    "Ocfl.C34"
   ],
   "note": ""
  },
  {
   "property": "C35",
   "status": "partial",
   "theorems": [
    "Ocfl.C35_partial",
    "Ocfl.C35_path_twice"
   ],
   "note": "A path listed twice for one algorithm is accepted, shown by a witness; the rest is proved."
  },
  {
   "property": "C36",
   "status": "partial",
   "theorems": [
    "Ocfl.C36_partial",
    "Ocfl.C36_raises_null",
    "Ocfl.C36_raises_no_manifest",
    "Ocfl.C36_raises_version",
    "Ocfl.C36_raises_path",
    "Ocfl.C36_raises_alg"
   ],
   "note": "The code raises on some malformed documents (witnesses); proved for objects with a manifest, object version blocks and lists of string paths."
  },
  {
   "property": "C37",
   "status": "proved",
   "theorems": [
    "Ocfl.C37",
    "Ocfl.C37_order"
   ],
   "note": ""
  },
  {
   "property": "C38",
   "status": "proved",
   "theorems": [
    "Ocfl.C38"
   ],
   "note": "Digest algorithms given as strings."
  },
  {
   "property": "C39",
   "status": "partial",
   "theorems": [
    "Ocfl.C39_partial",
    "Ocfl.C39_violated",
    "Ocfl.C39_lax"
   ],
   "note": "Holds with digest checking, and without it unless the content directory is named like a sidecar; that case is a counterexample. With lax digests for inventories that use SHA-512 or SHA-256 and known fixity algorithms (C39_lax, see C89)."
  },
  {
   "property": "C40",
   "status": "proved",
   "theorems": [
    "Ocfl.C40",
    "Ocfl.C40_corruption"
   ],
   "note": "Digest checking on, lax digests off."
  },
  {
   "property": "C41",
   "status": "partial",
   "theorems": [
    "Ocfl.C41_partial",
    "Ocfl.C41_violated",
    "Ocfl.C41_violated_sidecar"
   ],
   "note": "The inventory of the last version may be missing, and the bytes of its sidecar may differ in blanks; the rest holds."
  },
  {
   "property": "C42",
   "status": "proved",
   "theorems": [
    "Ocfl.C42"
   ],
   "note": "Both settings of digest checking; lax digests off."
  },
  {
   "property": "C43",
   "status": "partial",
   "theorems": [
    "Ocfl.C43_partial",
    "Ocfl.C43_sticky",
    "Ocfl.C43_violated"
   ],
   "note": "The log is not cleared: the verdict is that of a new Validator only while all objects before were valid."
  },
  {
   "property": "C44",
   "status": "proved",
   "theorems": [
    "Ocfl.C44",
    "Ocfl.C44_options",
    "Ocfl.C44_order",
    "Ocfl.C44_monotone",
    "Ocfl.C44_codes"
   ],
   "note": "Counts, messages and codes of any sequence of error and warning calls; the text of a message is an input of the model."
  },
  {
   "property": "C45",
   "status": "proved",
   "theorems": [
    "Ocfl.C45",
    "Ocfl.C45_injective",
    "Ocfl.C45_refuses"
   ],
   "note": "Exact characterisation of the accepted identifiers."
  },
  {
   "property": "C46",
   "status": "proved",
   "theorems": [
    "Ocfl.C46",
    "Ocfl.C46_injective",
    "Ocfl.C46_not_nested",
    "Ocfl.C46_configurations"
   ],
   "note": "Digest function: only that values are hexadecimal of fixed length. Collisions appear as the second alternative of C46_injective."
  },
  {
   "property": "C47",
   "status": "partial",
   "theorems": [
    "Ocfl.C47_partial",
    "Ocfl.C47_reversible",
    "Ocfl.C47_injective",
    "Ocfl.C47_violated"
   ],
   "note": "Reversible for all identifiers; the identifiers '.' and '..' give unsafe paths (C47_violated), all others one safe name."
  },
  {
   "property": "C48",
   "status": "partial",
   "theorems": [
    "Ocfl.C48_injective",
    "Ocfl.C48_partial",
    "Ocfl.C48_violated"
   ],
   "note": "Injective. Objects can be nested (C48_violated); C48_partial says exactly when. The third-party pairtree encoder is a parameter."
  },
  {
   "property": "C49",
   "status": "partial",
   "theorems": [
    "Ocfl.C49_accepts",
    "Ocfl.C49_partial",
    "Ocfl.C49_violated"
   ],
   "note": "Canonical UUIDs are accepted; a final newline and digits of other scripts are accepted too (C49_violated)."
  },
  {
   "property": "C50",
   "status": "proved",
   "theorems": [
    "Ocfl.C50",
    "Ocfl.C50_writes",
    "Ocfl.C50_accepts",
    "Ocfl.C50_refuses",
    "Ocfl.goodParams_of_accepted",
    "Ocfl.C50_no_params"
   ],
   "note": "JSON reading and writing enter as a library with the laws JsonLib.Lawful. GoodParams are the allowed parameters; goodParams_of_accepted shows that every accepted configuration gives them. C50_no_params: the flat layouts cannot be opened at all where a configuration file for them exists."
  },
  {
   "property": "C51",
   "status": "partial",
   "theorems": [
    "Ocfl.C51_partial",
    "Ocfl.C51_violated",
    "Ocfl.C51_add"
   ],
   "note": "Every registered name except that of the tuple tree layout."
  },
  {
   "property": "C52",
   "status": "partial",
   "theorems": [
    "Ocfl.C52_find",
    "Ocfl.C52_check",
    "Ocfl.C52_partial",
    "Ocfl.C52_violated"
   ],
   "note": "Holds for content without carriage returns that is not blank; the violations are blank content and content with a carriage return before a line feed."
  },
  {
   "property": "C53",
   "status": "partial",
   "theorems": [
    "Ocfl.C53_partial",
    "Ocfl.C53_exact",
    "Ocfl.C53_no_nesting",
    "Ocfl.C53_violated",
    "Ocfl.C53_violated_extension"
   ],
   "note": "Exact characterisation of what is listed and what is an error, for every tree. Missing: names of declarations that go on after the version, and unregistered extensions without a log (both violated)."
  },
  {
   "property": "C54",
   "status": "partial",
   "theorems": [
    "Ocfl.C54_partial",
    "Ocfl.C54_listing",
    "Ocfl.C54_refuses",
    "Ocfl.C54_taken",
    "Ocfl.C54_layouts",
    "Ocfl.C54_violated"
   ],
   "note": "Copy, frame, refusal and the exact condition for the object to be listed. Missing: that it always is (violated)."
  },
  {
   "property": "C55",
   "status": "partial",
   "theorems": [
    "Ocfl.C55_partial",
    "Ocfl.C55_result",
    "Ocfl.C55_violated",
    "Ocfl.C55_violated_command"
   ],
   "note": "The result together with the counts is exactly the declarative rule; the result alone does not depend on the objects (violated)."
  },
  {
   "property": "C56",
   "status": "partial",
   "theorems": [
    "Ocfl.C56_partial",
    "Ocfl.C56_sequence",
    "Ocfl.C56_violated"
   ],
   "note": "Missing: a conflicting version is not refused but replaces the first one, and a call without a version fails once one is set (C56_violated)."
  },
  {
   "property": "C57",
   "status": "proved",
   "theorems": [
    "Ocfl.C57",
    "Ocfl.C57_files"
   ],
   "note": "Local file systems. A directory is named by its components with or without a leading slash."
  },
  {
   "property": "C58",
   "status": "proved",
   "theorems": [
    "Ocfl.C58",
    "Ocfl.C58_digest"
   ],
   "note": "File contents as byte lists; the digester is any state machine whose result does not depend on how the input is cut."
  },
  {
   "property": "C59",
   "status": "proved",
   "theorems": [
    "Ocfl.C59",
    "Ocfl.C59_refuses"
   ],
   "note": "Local file systems; empty directories of the source are not recreated, as documented."
  },
  {
   "property": "C60",
   "status": "proved",
   "theorems": [
    "Ocfl.C60",
    "Ocfl.C60_missing"
   ],
   "note": "On the typed inventory; an absent or empty creation time is replaced by the current time when written."
  },
  {
   "property": "C61",
   "status": "proved",
   "theorems": [
    "Ocfl.C61_round_trip",
    "Ocfl.C61_range",
    "Ocfl.timegm_eq"
   ],
   "note": "Formatting a timestamp and parsing it back gives the same timestamp, for every whole second of the years 1-9999."
  },
  {
   "property": "C62",
   "status": "partial",
   "theorems": [
    "Ocfl.C62_utc_partial",
    "Ocfl.C62_violated"
   ],
   "note": "Proved for UTC (Z or zero offset). For every non-zero offset the code is wrong: the offset is applied with the wrong sign (C62_violated). Missing: nothing can be proved for non-zero offsets because the claim is false there."
  },
  {
   "property": "C63",
   "status": "proved",
   "theorems": [
    "Ocfl.C63",
    "Ocfl.C63_version",
    "Ocfl.C63_injective"
   ],
   "note": "UTF-8 percent-encoding at byte level; relative source paths."
  },
  {
   "property": "C64",
   "status": "partial",
   "theorems": [
    "Ocfl.C64_directory",
    "Ocfl.C64_partial",
    "Ocfl.C64_file",
    "Ocfl.C64_violated"
   ],
   "note": "The code does not ask for a single declaration: with several it takes the first that fits, and with more than ten it raises."
  },
  {
   "property": "C65",
   "status": "proved",
   "theorems": [
    "Ocfl.C65",
    "Ocfl.C65_one",
    "Ocfl.C65_violated",
    "Ocfl.C65_loser"
   ],
   "note": "For any number of writers and every interleaving, under the stated assumption that a directory is made in one step. The local file system layer does not do that: C65_violated."
  },
  {
   "property": "C66",
   "status": "partial",
   "theorems": [
    "Ocfl.C66_partial",
    "Ocfl.C66_next",
    "Ocfl.C66_broken",
    "Ocfl.C66_violated"
   ],
   "note": "an update never lowers the version of an inventory, and objects that declare 1.1 keep passing; objects created with 1.0 stop being valid after their second update"
  },
  {
   "property": "C67",
   "status": "partial",
   "theorems": [
    "Ocfl.C67_partial",
    "Ocfl.C67_update_partial",
    "Ocfl.C67_refuses",
    "Ocfl.C67_invalid",
    "Ocfl.C67_violated_update",
    "Ocfl.C67_violated_address"
   ],
   "note": "Round trip of files, identifier, message, user name and address through a bag, into a new object and as the next version of an object, for metadata that fits a bag. The property fails for updates with a bag of another object and for addresses that are no e-mail addresses, both with witnesses."
  },
  {
   "property": "C68",
   "status": "partial",
   "theorems": [
    "Ocfl.C68_remove_first",
    "Ocfl.C68_rejoin",
    "Ocfl.C68_partial",
    "Ocfl.C68_violated"
   ],
   "note": "remove_first_directory for every path. strip_root compares characters, not names: siblings with a longer name are not refused, and the root '/' makes the result depend on the current directory (C68_violated)."
  },
  {
   "property": "C69",
   "status": "proved",
   "theorems": [
    "Ocfl.C69",
    "Ocfl.C69_content",
    "Ocfl.C69_refuses"
   ],
   "note": "Same hypotheses on destinations and content paths as C20."
  },
  {
   "property": "C70",
   "status": "partial",
   "theorems": [
    "Ocfl.C70_partial",
    "Ocfl.C70_violated_declarations",
    "Ocfl.C70_violated_declaration",
    "Ocfl.C70_violated_inventory",
    "Ocfl.C70_violated_text",
    "Ocfl.C70_violated_sidecar",
    "Ocfl.C70_violated_manifest",
    "Ocfl.C70_violated_fixity",
    "Ocfl.C70_violated_state",
    "Ocfl.C70_lax",
    "Ocfl.C70_violated_lax"
   ],
   "note": "The code violates the property for the trees of the C70_violated theorems. Proved: a verdict is given for every tree, whatever rules it breaks, in which these things do not occur. With lax digests the same for inventories that use SHA-512 or SHA-256 and known fixity algorithms (C70_lax); an algorithm that is not a string raises (C70_violated_lax)."
  },
  {
   "property": "C71",
   "status": "partial",
   "theorems": [
    "Ocfl.C71_computed_digest_partial",
    "Ocfl.C71_violated"
   ],
   "note": "The code violates the property for sha512-spec-ex (C71_violated). Proved for all other algorithms."
  },
  {
   "property": "C72",
   "status": "partial",
   "theorems": [
    "Ocfl.C72_partial",
    "Ocfl.C72_newline"
   ],
   "note": "The code allows a final newline and any Unicode decimal digits."
  },
  {
   "property": "C73",
   "status": "proved",
   "theorems": [
    "Ocfl.C73",
    "Ocfl.C73_lax"
   ],
   "note": "Verdict true iff the rules in Spec.ValidObject, for all trees, both settings of digest checking, with an empty log; with lax digests for inventories that use no other algorithms (C73_lax, C89)."
  },
  {
   "property": "C74",
   "status": "proved",
   "theorems": [
    "Ocfl.C74"
   ],
   "note": "for histories whose files have different digests (NoCollision) and up to 99999 versions; an exact characterisation, see C66 for the other direction"
  },
  {
   "property": "C75",
   "status": "proved",
   "theorems": [
    "Ocfl.C75"
   ],
   "note": "Without lax digests. What is asked of a storage root is what C55_result says."
  },
  {
   "property": "C76",
   "status": "proved",
   "theorems": [
    "Ocfl.C76"
   ],
   "note": "For every history (creation, updates, copies of the object, changes elsewhere)."
  },
  {
   "property": "C77",
   "status": "partial",
   "theorems": [
    "Ocfl.C77_partial",
    "Ocfl.C77_full",
    "Ocfl.C77_history",
    "Ocfl.C77_violated"
   ],
   "note": "Validity of the copy if the directory of each version has files in it; C77_full shows this for objects made by the library, C77_history that such objects go on with all that is proved of histories. Missing because false: objects with an empty version directory."
  },
  {
   "property": "C78",
   "status": "partial",
   "theorems": [
    "Ocfl.C78_partial",
    "Ocfl.C78_place",
    "Ocfl.C78_initialize",
    "Ocfl.C78_makes",
    "Ocfl.C78_violated",
    "Ocfl.C78_violated_declaration"
   ],
   "note": "All sequences of initialize, add, changes outside and updates that keep objects valid. The layout has to be registered under the name that it writes (not so for the tuple tree: C78_violated), objects must not be placed as declarations, in the extensions directory or in other objects (C78_place: only identifiers \"extensions\" and, in the flat layout, those beginning with 0= do this, the tuple tree apart; C78_violated_declaration), and the version directories of added objects have to have files (C77_violated)."
  },
  {
   "property": "C79",
   "status": "partial",
   "theorems": [
    "Ocfl.C79_object",
    "Ocfl.C79_partial",
    "Ocfl.C79_history",
    "Ocfl.C79_logical",
    "Ocfl.C79_destination",
    "Ocfl.C79_violated"
   ],
   "note": "Missing object directory, version, logical path and unusable destination are covered. Other exceptions are raised for a missing inventory, an inventory that is not JSON, and a destination that is a file (C79_violated)."
  },
  {
   "property": "C80",
   "status": "partial",
   "theorems": [
    "Ocfl.C80_partial",
    "Ocfl.C80_gap",
    "Ocfl.C80_dry",
    "Ocfl.C80_violated",
    "Ocfl.C80_violated_first",
    "Ocfl.C80_violated_empty"
   ],
   "note": "Proved for version directories named v1, v2, ... without leading zeros, if the first has a file, the object directory is new and no two different files have the same digest. Fails for names with leading zeros (C80_violated, C80_violated_first) and without version directories (C80_violated_empty). Objects of version 1.0 with three versions or more are invalid, see C66."
  },
  {
   "property": "C81",
   "status": "partial",
   "theorems": [
    "Ocfl.C81_partial",
    "Ocfl.C81_correct",
    "Ocfl.C81_violated",
    "Ocfl.C81_violated_update"
   ],
   "note": "What an update keeps is exact, and everything recorded is right. The digests of new content files are never recorded: add_fixity_data is not called by the library (C81_violated, C81_violated_update)."
  },
  {
   "property": "C82",
   "status": "partial",
   "theorems": [
    "Ocfl.C82_partial",
    "Ocfl.C82_violated"
   ],
   "note": "The results of both processes are exact for all interleavings. The extraction may fail with JSONDecodeError or UnicodeDecodeError as the inventory of the object is overwritten in place (C82_violated); C82_partial says that nothing else can go wrong. Reading one file is one step. Assumes that the JSON library accepts no proper first part of the text of an object, proved for pyJson (pyJson_noPrefix)."
  },
  {
   "property": "C83",
   "status": "partial",
   "theorems": [
    "Ocfl.C83_writes",
    "Ocfl.C83_right",
    "Ocfl.C83_partial",
    "Ocfl.C83_spoils",
    "Ocfl.C83_violated"
   ],
   "note": "What is written is exact for all inputs (C83_writes, C83_right), and objects become valid if the algorithm is given, or is SHA-512 (C83_partial). Without --digest the command always uses SHA-512, as parse_inventory does not set the algorithm: every valid object with SHA-256 is invalid afterwards (C83_spoils, witness C83_violated)."
  },
  {
   "property": "C84",
   "status": "partial",
   "theorems": [
    "Ocfl.C84_partial",
    "Ocfl.C84_file",
    "Ocfl.C84_update",
    "Ocfl.C84_looks",
    "Ocfl.C84_violated",
    "Ocfl.C84_violated_status",
    "Ocfl.C84_violated_digest"
   ],
   "note": "Extraction is exact for every session (C84_partial, C84_file), `validate` says VALID exactly if the object was made with --spec-version 1.1 or has at most two versions, given a --name whenever there is an --address; otherwise the object is invalid from the start (C84_violated). The exit status of validate is always 0 (C84_violated_status), and update without --digest changes a SHA-256 object to SHA-512 (C84_update says exactly which sidecar is left; C84_violated_digest). Sessions with `build --metadata` are not covered."
  },
  {
   "property": "C85",
   "status": "partial",
   "theorems": [
    "Ocfl.C85_all",
    "Ocfl.C85_valid",
    "Ocfl.C85_partial",
    "Ocfl.C85_violated",
    "Ocfl.C85_violated_marks"
   ],
   "note": "The whole text is determined for every directory on which validation ends (C85_all), with the right content directory and declaration for valid objects (C85_valid), and without marks for objects made by the library (C85_partial; not those of specification 1.0 with more than two versions). A valid object with an `extensions` directory is marked (C85_violated); a second sidecar in a version directory and a file named like a version are not marked (C85_violated_marks)."
  },
  {
   "property": "C86",
   "status": "partial",
   "theorems": [
    "Ocfl.C86_partial",
    "Ocfl.C86_verdict",
    "Ocfl.C86_adds",
    "Ocfl.C86_looks",
    "Ocfl.C86_violated_status",
    "Ocfl.C86_violated_errors",
    "Ocfl.C86_violated_show",
    "Ocfl.C86_violated_layout",
    "Ocfl.C86_violated_commands"
   ],
   "note": "Proved for all sequences of create, add and update and all objects made with ocfl-object.py (C86_partial), for all trees of files (C86_verdict, C86_looks), with `add` succeeding whenever the place is free (C86_adds). Not for the tuple tree and layouts not registered under the name they write. The exit status does not tell VALID from INVALID (C86_violated_status), `--max_errors` raises (C86_violated_errors), `show` looks in the wrong directory (C86_violated_show), `path --layout` ignores the layout of the root (C86_violated_layout), `purge` and `validate-object` do nothing (C86_violated_commands)."
  },
  {
   "property": "C87",
   "status": "partial",
   "theorems": [
    "Ocfl.C87_partial",
    "Ocfl.C87_file",
    "Ocfl.C87_violated_nested",
    "Ocfl.C87_violated_number"
   ],
   "note": "Proved for every object that passes validation if no version number has more than five digits and no logical path of the version lies inside another one (C87_partial); for a single file without the latter (C87_file). Validation accepts objects with logical paths `g` and `g/d/h`, whose extraction raises NotADirectoryError (C87_violated_nested), and six-digit version numbers, which the library cannot read (C87_violated_number)."
  },
  {
   "property": "C88",
   "status": "partial",
   "theorems": [
    "Ocfl.C88_partial",
    "Ocfl.C88_create",
    "Ocfl.C88_update",
    "Ocfl.C88_add",
    "Ocfl.C88_build",
    "Ocfl.C88_violated_unchecked"
   ],
   "note": "With digest checking: every moment of create (C88_create) and of StorageRoot.add (C88_add), and any tree whose root inventory is a first part of that of an object made by the library (C88_partial), if no two of the contents concerned have the same digest. For updates (C88_update) and for build (C88_build) also without digest checking. Needs that no proper prefix of a JSON document the library writes is itself a JSON document (NoPrefix, proved for the codec of the examples). Without digest checking create violates it: it copies the content last, so that a truncated content file passes (C88_violated_unchecked). Missing: sources, settings and metadata outside of what histories cover (names with a newline, create from a directory without files, metadata with a state of its own), and for build version directories that are not named v1, v2, ..."
  },
  {
   "property": "C89",
   "status": "proved",
   "theorems": [
    "Ocfl.C89_widens",
    "Ocfl.C89_same",
    "Ocfl.C89_reason"
   ],
   "note": "A step-by-step comparison of both runs: as long as the first makes no error, or if the inventory is ordinary, values and errors are the same (warnings are not: W004 is given for sha256 only without the option)."
  },
  {
   "property": "C90",
   "status": "partial",
   "theorems": [
    "Ocfl.C90_partial",
    "Ocfl.C90_inventory",
    "Ocfl.C90_violated",
    "Ocfl.C90_violated_padding",
    "Ocfl.C90_exchanged",
    "Ocfl.C90_violated_root"
   ],
   "note": "All codes but E011 and E092, which are used but are not in the table (C90_violated, C90_violated_padding). The descriptions of E052 and E053 are exchanged (C90_exchanged). Three reports on storage roots are incomplete (C90_violated_root). The names of the arguments of each call are part of the model, their values are arbitrary."
  },
  {
   "property": "C91",
   "status": "proved",
   "theorems": [
    "Ocfl.C91"
   ],
   "note": "Steps and their sameness are defined in Spec/Recipe.lean. For the model of the calls; at most 99999 versions. The abort flag of add_version_with_content may differ."
  },
  {
   "property": "C92",
   "status": "partial",
   "theorems": [
    "Ocfl.C92_same",
    "Ocfl.C92_partial",
    "Ocfl.C92_layouts",
    "Ocfl.C92_violated"
   ],
   "note": "C92_same is the second part, in full. C92_partial is the first part, if no object goes into another one, into the extensions directory, or where declarations are; C92_layouts gives these conditions for all layouts but the tuple tree, for objects that are not called extensions (nor, in the flat layout, something that begins with 0=). Without them the first part is false of the code (C92_violated): an object with the identifier 0=x can be added after another, but not the other after it."
  },
  {
   "property": "C93",
   "status": "proved",
   "theorems": [
    "Ocfl.C93",
    "Ocfl.update_after",
    "Ocfl.create_after"
   ],
   "note": "C93 is the statement. What each call needs when it begins (Spec/Jobs.lean, Job.Ready) is that new objects and extracted versions go to a vacant place in an existing directory, and that objects that are updated or extracted were made by the library and have at most 99999 versions, without digest collisions among their contents. update_after and create_after turn the conclusion into the history of the object."
  },
  {
   "property": "C94",
   "status": "partial",
   "theorems": [
    "Ocfl.C94_partial",
    "Ocfl.C94_violated"
   ],
   "note": "C94_partial is the statement for any settings and any state of the log; with lax_digests=True no inventory in the object may name a digest algorithm with a slash. Without that condition it is false (C94_violated): the name of the sidecar is made from the digestAlgorithm of the inventory, which is then not restricted, so that /../../x makes the report depend on a file outside the object."
  },
  {
   "property": "C95",
   "status": "partial",
   "theorems": [
    "Ocfl.C95_partial",
    "Ocfl.C95_violated"
   ],
   "note": "C95_partial is the statement for any setting of check_digests and any state of the log; with lax digests it needs that no inventory names a digestAlgorithm with a slash. Without that it is false (C95_violated): the name of the sidecar is made from the unrestricted digestAlgorithm, and /../logs/x makes the report depend on logs/x."
  },
  {
   "property": "C96",
   "status": "proved",
   "theorems": [
    "Ocfl.C96",
    "Ocfl.C96_valid",
    "Ocfl.C96_root"
   ],
   "note": "C96 gives the exact log and the exact verdicts; C96_valid is the case of a valid object. Entries are severity and code; the texts of messages are not compared. C96_root: for StorageRoot.validate the result and the number of objects stay the same and the number of valid objects does not go down."
  },
  {
   "property": "C97",
   "status": "partial",
   "theorems": [
    "Ocfl.C97_partial",
    "Ocfl.C97_listing"
   ],
   "note": "C97_listing is unrestricted. C97_partial needs, only if lax digests are allowed and objects are validated, that no digest algorithm in an inventory contains a slash: see C94_violated for why object validation itself depends on this. Which exception is raised may depend on the listing order."
  },
  {
   "property": "C98",
   "status": "proved",
   "theorems": [
    "Ocfl.C98",
    "Ocfl.C98_refines"
   ],
   "note": "C98 is about the model with the log (validateFull); C98_refines shows that it gives the same results, counts and attributes as the model that the other properties of StorageRoot.validate are about. Entries are code and place; the texts are the subject of C90."
  },
  {
   "property": "C99",
   "status": "proved",
   "theorems": [
    "Ocfl.C99",
    "Ocfl.C98_refines"
   ],
   "note": "Kept are the path and the entries that are shown; the text made of them is empty if and only if there are none (see the comment on hierarchyLoop)."
  }
 ]
}
