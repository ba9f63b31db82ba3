{"id": "C01", "title": "Next version directory is the exact successor", "statement": "If next_version_directory(d) returns e for a directory d naming version n, then e names version n+1 and, when d is zero padded, e is zero padded to the same total length; if there is no room left at that padding the call raises ObjectException instead of returning a different width or wrapping. Every well-formed version directory below the parser's five-digit limit has a successor that parses.", "quantifier": "every version directory string d, of every padding and every version number", "why_tests_cant": "Carry and padding boundaries occur at every power of ten and every width; a test suite samples a few of unboundedly many strings.", "anchors": ["ocfl/object_utils.py: next_version_directory", "ocfl/object_utils.py: parse_version_directory"]}
{"id": "C02", "title": "Version directory names parse to the number they spell", "statement": "parse_version_directory accepts a string exactly when it is 'v' followed by one to five decimal digits that spell a non-zero number (the regular expression also lets one trailing newline through), and returns that number; first_version_directory(width) returns a name of the requested width that parses to 1, or raises for widths outside 2..5.", "quantifier": "every string and every padding width", "why_tests_cant": "The accepted language is infinite in the ways it can be missed (Unicode digits, newline, length limits); examples cannot show that nothing else is accepted.", "anchors": ["ocfl/object_utils.py: parse_version_directory", "ocfl/object_utils.py: first_version_directory"]}
{"id": "C03", "title": "Adding versions gives a contiguous numbering with head last", "statement": "Starting from an inventory with no versions, k successive add_version() calls (with any zero-padding width) create exactly the versions 1..k in one uniform naming style, head always names the last of them, version_numbers is 1..k in order, and no earlier version block is changed.", "quantifier": "every number of calls k, every padding style, all metadata and state arguments", "why_tests_cant": "It is a statement about histories of any length; crossing v9/v10 is exactly where lexical ordering bugs hide.", "anchors": ["ocfl/inventory.py: Inventory.add_version", "ocfl/inventory.py: Inventory._next_version_directory", "ocfl/inventory.py: Inventory.version_directories", "ocfl/inventory.py: Inventory.version_numbers"]}
{"id": "C04", "title": "Unused file paths are found and are unused", "statement": "make_unused_filepath(f, used) always returns; the result is never in used, is f itself when f is unused, and otherwise is f + '__' + k for the least k >= 2 that gives an unused path.", "quantifier": "every path string and every finite collection of used paths", "why_tests_cant": "Termination and freshness range over every collection of used names, including ones that already contain __2, __3 ... suffixes.", "anchors": ["ocfl/object_utils.py: make_unused_filepath"]}
{"id": "C05", "title": "Digest normalisation is a canonical form", "statement": "normalized_digest is idempotent, identifies exactly the digests that differ only in letter case for the case-insensitive algorithms, changes nothing for the case-sensitive ones, and never changes whether a digest is well formed for its algorithm.", "quantifier": "every digest string and every algorithm name", "why_tests_cant": "Needs all strings: a collision between two distinct digests would silently merge two manifest entries.", "anchors": ["ocfl/digest.py: normalized_digest", "ocfl/digest.py: digest_regex"]}
{"id": "C06", "title": "No two files ever share a content path", "statement": "After any sequence of add, delete and rename operations on a new version, applied to an inventory whose manifest lists each content path once, the manifest still lists each content path once, whatever path normalisation, dedupe and forward-delta settings are used.", "quantifier": "every starting inventory, every finite sequence of operations with any arguments, all settings", "why_tests_cant": "Uniqueness must survive every interleaving of automatic path choice, explicit content paths and deletions that free paths again.", "anchors": ["ocfl/new_version.py: NewVersion.add", "ocfl/new_version.py: NewVersion._map_filepath", "ocfl/new_version.py: NewVersion.delete", "ocfl/new_version.py: NewVersion.rename", "ocfl/inventory.py: Inventory.add_file_to_manifest"]}
{"id": "C07", "title": "A new version behaves as a map from logical paths to digests", "statement": "Every sequence of add, delete and rename operations on a new version changes the version state exactly as the corresponding insert, remove and rename on a finite map from logical path to content digest, and an operation raises exactly when the map operation is undefined (inserting an existing path, deleting or renaming a missing one, renaming onto an existing one) or an argument check fails.", "quantifier": "every starting state and every finite sequence of operations", "why_tests_cant": "Refinement over all histories: the digest-keyed representation with list values can go wrong on any combination of shared digests.", "anchors": ["ocfl/new_version.py: NewVersion.add", "ocfl/new_version.py: NewVersion.delete", "ocfl/new_version.py: NewVersion.rename", "ocfl/inventory.py: Version.delete_logical_path"]}
{"id": "C08", "title": "A refused operation changes nothing", "statement": "When add, delete or rename on a new version raises, the inventory and the list of files waiting to be copied are exactly as before the call.", "quantifier": "every new version, every argument, every reason for refusal", "why_tests_cant": "There is one refusal branch per check and each must come before every mutation for all inputs.", "anchors": ["ocfl/new_version.py: NewVersion.add", "ocfl/new_version.py: NewVersion.delete", "ocfl/new_version.py: NewVersion.rename"]}
{"id": "C09", "title": "Working on a new version never alters earlier versions", "statement": "No sequence of add, delete and rename operations changes the state block of any version other than the new one, or removes or adds a manifest entry for a content path belonging to an earlier version.", "quantifier": "every inventory, every sequence of operations", "why_tests_cant": "Version immutability is a property of all histories, including deletes of content shared with earlier versions.", "anchors": ["ocfl/new_version.py: NewVersion.add", "ocfl/new_version.py: NewVersion.delete", "ocfl/new_version.py: NewVersion.rename", "ocfl/inventory.py: Version.delete_logical_path"]}
{"id": "C10", "title": "Every logical path in a new version has content", "statement": "After any sequence of add, delete and rename operations, every digest in the new version's state has at least one content path in the manifest, so every logical path can be read back.", "quantifier": "every starting inventory with that property, every finite sequence of operations", "why_tests_cant": "A single unlucky sequence (for example renaming a file added in the same version) is enough to break it; tests try a handful of sequences.", "anchors": ["ocfl/new_version.py: NewVersion.rename", "ocfl/inventory.py: Version.delete_logical_path", "ocfl/inventory.py: Inventory.content_path_for_digest"]}
{"id": "C11", "title": "Files queued for copying match the manifest", "statement": "When a new version is finished, the content paths of the new version in the manifest are exactly the destinations queued for copying, each queued source has the digest under which the manifest lists its destination, and no destination is queued twice.", "quantifier": "every sequence of operations on the new version and every source directory content", "why_tests_cant": "Depends on the whole history of adds, repeated sources, deletes and path reuse.", "anchors": ["ocfl/new_version.py: NewVersion.add", "ocfl/new_version.py: NewVersion.files_to_copy", "ocfl/new_version.py: NewVersion.delete", "ocfl/object.py: Object.write_new_version"]}
{"id": "C12", "title": "New content always lands under the new version's content directory", "statement": "Every content path a new version adds to the manifest starts with '<head>/<contentDirectory>/'.", "quantifier": "every source path, explicit content path, and normalisation setting", "why_tests_cant": "Path joining behaves differently for absolute source paths; only a universally quantified statement exposes the exception.", "anchors": ["ocfl/new_version.py: NewVersion._map_filepath", "ocfl/new_version.py: NewVersion.add"]}
{"id": "C13", "title": "Deduplication stores each distinct content at most once per version", "statement": "With dedupe on, adding files never creates a second content path in the new version for a digest that already has one there; with dedupe off and without forward delta every add of a file creates its own content path.", "quantifier": "every sequence of adds and every assignment of digests to sources", "why_tests_cant": "Depends on the order of adds and on which digests coincide.", "anchors": ["ocfl/new_version.py: NewVersion.add"]}
{"id": "C14", "title": "Forward delta never stores content again", "statement": "With forward_delta (and no explicit reason to duplicate), adding a file whose digest already has content in any version creates no new content path; without forward_delta the new version gets its own copy.", "quantifier": "every inventory and every sequence of adds", "why_tests_cant": "Ranges over all earlier manifests and all prefixes of version directory names such as v1 and v10.", "anchors": ["ocfl/new_version.py: NewVersion.add"]}
{"id": "C15", "title": "diff_with_previous reports no difference exactly when the states agree", "statement": "diff_with_previous of a new version returns an empty report exactly when the new state and the previous version's state map the same logical paths to the same digests; otherwise every added, deleted, changed or renamed path is reported.", "quantifier": "every pair of states", "why_tests_cant": "The report is computed through set and rename heuristics; a missed case would silently drop a new version.", "anchors": ["ocfl/new_version.py: NewVersion.diff_with_previous"]}
{"id": "C16", "title": "find_logical_path returns the most recent version", "statement": "find_logical_path(p) returns the highest numbered version whose state contains p together with the content path of p in that version, and (None, None) when no version contains p.", "quantifier": "every inventory and logical path", "why_tests_cant": "Version order for ten or more versions, zero padding and absent states are unbounded combinations.", "anchors": ["ocfl/inventory.py: Inventory.find_logical_path"]}
{"id": "C17", "title": "Content path and digest lookups are inverse", "statement": "For an inventory listing each content path once, digest_for_content_path(p) = d exactly when p is among content_paths_for_digest(d), content_paths lists every manifest path exactly once and content agrees with both; content_path_for_logical_path of a version returns a content path of the digest that digest_for_logical_path returns.", "quantifier": "every inventory with unique content paths, every path and digest", "why_tests_cant": "Needs every manifest shape.", "anchors": ["ocfl/inventory.py: Inventory.digest_for_content_path", "ocfl/inventory.py: Inventory.content_paths", "ocfl/inventory.py: Inventory.content", "ocfl/inventory.py: Inventory.content_path_for_digest", "ocfl/inventory.py: Version.content_path_for_logical_path", "ocfl/inventory.py: Version.digest_for_logical_path"]}
{"id": "C18", "title": "Normalising digests preserves what every version contains", "statement": "For any inventory whose manifest digests are distinct up to case and whose states only use manifest digests, normalize_digests changes only the spelling of digests: every logical path of every version maps to the same content paths afterwards, every digest is in normal form and running it again changes nothing.", "quantifier": "every valid inventory", "why_tests_cant": "Renames keys of several dictionaries in place; any order dependence or collision would lose content for some inventory.", "anchors": ["ocfl/inventory.py: Inventory.normalize_digests"]}
{"id": "C19", "title": "Changing the digest algorithm preserves what every version contains", "statement": "start_new_version with a different digest algorithm re-keys manifest and all states so that every logical path of every earlier version still maps to the same content paths (as long as the stored files of one manifest entry are identical), and it refuses if files listed together are not identical.", "quantifier": "every inventory and stored content, every pair of algorithms", "why_tests_cant": "The mapping of old to new digests must be right for every manifest, including duplicate content paths.", "anchors": ["ocfl/object.py: Object.start_new_version"]}
{"id": "C20", "title": "Extraction writes exactly the version state", "statement": "extract(version, dst) produces at dst exactly the logical paths in that version's state, each with the bytes of a content file the manifest lists for its digest; it leaves the stored object unchanged and refuses to write into a non-empty destination.", "quantifier": "every object, version and destination", "why_tests_cant": "All states and all manifests.", "anchors": ["ocfl/object.py: Object.extract", "ocfl/object.py: Object._extract_setup"]}
{"id": "C21", "title": "Create then extract is the identity on file trees", "statement": "Creating an object from any source tree and extracting its head gives back exactly the same relative file paths with exactly the same bytes, whatever the digest algorithm, path normalisation, dedupe and forward-delta settings.", "quantifier": "every source tree, every setting, every digest function without a collision on those files", "why_tests_cant": "Infinite family of trees with duplicate files, name clashes after normalisation, and so on.", "anchors": ["ocfl/object.py: Object.create", "ocfl/object.py: Object.extract", "ocfl/new_version.py: NewVersion.add_from_srcdir"]}
{"id": "C22", "title": "Every version of a history can be recovered exactly", "statement": "After creating an object and adding any number of further versions from source trees, extracting version k returns exactly the k-th source tree.", "quantifier": "every finite list of source trees and every setting", "why_tests_cant": "Induction over histories of any length.", "anchors": ["ocfl/object.py: Object.create", "ocfl/object.py: Object.add_version_with_content", "ocfl/object.py: Object.write_new_version", "ocfl/object.py: Object.extract"]}
{"id": "C23", "title": "Updating never touches files of earlier versions", "statement": "write_new_version leaves every file under every earlier version directory, and every other file apart from the root inventory and its sidecars, byte for byte as it was; only the new version directory is created.", "quantifier": "every object and every new version", "why_tests_cant": "All objects and all pending changes.", "anchors": ["ocfl/object.py: Object.write_new_version", "ocfl/object.py: Object.write_inventory_and_sidecar"]}
{"id": "C24", "title": "A crash while writing a version leaves earlier content readable", "statement": "If write_new_version stops after any prefix of its file-system operations, all content files and version inventories of the earlier versions are unchanged, and the root inventory is the old one, the new one, or in the middle of being rewritten; until the root inventory is replaced the old one with its content is still complete.", "quantifier": "every crash point of every update of every object", "why_tests_cant": "Tests do not crash at every intermediate point.", "anchors": ["ocfl/object.py: Object.write_new_version", "ocfl/object.py: Object.write_inventory_and_sidecar"]}
{"id": "C25", "title": "The sidecar always matches the inventory it is written with", "statement": "write_inventory_and_sidecar writes a sidecar that, read back by the validator's sidecar reader, yields exactly the digest of the inventory bytes written in the same call, under the name of the algorithm declared in that inventory.", "quantifier": "every inventory and every digest algorithm setting", "why_tests_cant": "The agreement between two settings held in two objects must hold for every combination.", "anchors": ["ocfl/object.py: Object.write_inventory_and_sidecar", "ocfl/validator.py: Validator.read_inventory_digest", "ocfl/object.py: Object.start_new_version"]}
{"id": "C26", "title": "An update without changes is not written", "statement": "add_version_with_content with abort_if_no_difference writes nothing to the object exactly when the source tree has the same logical paths with the same content digests as the current head.", "quantifier": "every object and every source tree", "why_tests_cant": "All pairs of states, in particular renames and swaps of content.", "anchors": ["ocfl/object.py: Object.add_version_with_content", "ocfl/new_version.py: NewVersion.diff_with_previous"]}
{"id": "C27", "title": "A newly created object's inventory validates", "statement": "The inventory that create() or the first new version writes for a non-empty source tree with metadata carrying a creation time passes the library's own inventory validation for the same specification version.", "quantifier": "every source tree with valid relative paths, identifier, digest algorithm and settings", "why_tests_cant": "All trees and all settings.", "anchors": ["ocfl/object.py: Object.create", "ocfl/new_version.py: NewVersion.first_version", "ocfl/inventory_validator.py: InventoryValidator.validate"]}
{"id": "C28", "title": "Inventories stay valid through any history of updates", "statement": "Adding any number of versions built from source trees to a valid inventory gives an inventory that again passes inventory validation and whose earlier versions pass the prior-version check.", "quantifier": "every valid inventory and every finite sequence of source trees", "why_tests_cant": "Invariant over histories.", "anchors": ["ocfl/object.py: Object.add_version_with_content", "ocfl/new_version.py: NewVersion.next_version", "ocfl/inventory_validator.py: InventoryValidator.validate", "ocfl/inventory_validator.py: InventoryValidator.validate_as_prior_version"]}
{"id": "C29", "title": "Validated version numbering is contiguous and uniform", "statement": "An inventory passes the version-sequence checks exactly when its version names are v1..vN without gaps for some N >= 1, all unpadded (N <= 999999), or all zero padded to one width of 2 to 10 digits that leaves a leading zero; and in an inventory that passes validation head names version N.", "quantifier": "every JSON value in the versions block", "why_tests_cant": "Any set of names must be classified correctly.", "anchors": ["ocfl/inventory_validator.py: InventoryValidator._validate_version_sequence", "ocfl/inventory_validator.py: InventoryValidator.validate"]}
{"id": "C30", "title": "Accepted inventories have the required top-level fields", "statement": "If inventory validation succeeds then id is a non-empty string, type names a supported specification version (the one asked for, if one is forced), digestAlgorithm is sha512 or sha256 (or anything in lax mode), contentDirectory if present is a single safe path segment, and manifest, versions and head are present with the right shape.", "quantifier": "every JSON value", "why_tests_cant": "All malformed inputs.", "anchors": ["ocfl/inventory_validator.py: InventoryValidator.validate"]}
{"id": "C31", "title": "Accepted manifests and states have well-formed, unambiguous digests and unique paths", "statement": "If inventory validation succeeds then every manifest digest is well formed for the algorithm, no two manifest digests differ only in case, no content path occurs twice, and in every version no logical path occurs twice.", "quantifier": "every JSON value", "why_tests_cant": "All manifests.", "anchors": ["ocfl/inventory_validator.py: InventoryValidator._validate_manifest", "ocfl/inventory_validator.py: InventoryValidator._validate_state_block"]}
{"id": "C32", "title": "Accepted content paths are safe and inside a version's content directory", "statement": "If inventory validation succeeds then every content path has the form <existing version>/<contentDirectory>/<rest> where rest has no empty, '.' or '..' segment, and every logical path is relative and has no empty, '.' or '..' segment; so no file named by a validated inventory lies outside the object or the extraction directory.", "quantifier": "every JSON value", "why_tests_cant": "Path traversal is a for-all-strings property.", "anchors": ["ocfl/inventory_validator.py: InventoryValidator._check_content_path", "ocfl/inventory_validator.py: InventoryValidator._check_logical_path", "ocfl/object.py: Object.extract"]}
{"id": "C33", "title": "Accepted paths never conflict as file and directory", "statement": "If inventory validation succeeds then within the manifest, and within each version state, no path is also used as a directory of another path.", "quantifier": "every JSON value", "why_tests_cant": "Conflicts can occur at any depth.", "anchors": ["ocfl/inventory_validator.py: InventoryValidator._validate_manifest", "ocfl/inventory_validator.py: InventoryValidator._validate_state_block"]}
{"id": "C34", "title": "Manifest and states refer to the same digests", "statement": "If inventory validation succeeds then every digest used in any version state is a manifest digest that lists at least one content path, and every manifest digest with content paths is used by some version state.", "quantifier": "every JSON value", "why_tests_cant": "All inventories.", "anchors": ["ocfl/inventory_validator.py: InventoryValidator._validate_versions", "ocfl/inventory_validator.py: InventoryValidator._check_digests_present_and_used"]}
{"id": "C35", "title": "Accepted fixity blocks only talk about manifest files", "statement": "If inventory validation succeeds then every path in every fixity block is a manifest content path, no digest in a fixity block is repeated up to case and no path is listed twice for one algorithm.", "quantifier": "every JSON value and every digest algorithm name", "why_tests_cant": "All fixity blocks.", "anchors": ["ocfl/inventory_validator.py: InventoryValidator._validate_fixity"]}
{"id": "C36", "title": "Inventory validation always gives a verdict", "statement": "InventoryValidator.validate returns True or False for every JSON document; it never raises.", "quantifier": "every JSON value", "why_tests_cant": "Robustness against every malformed document.", "anchors": ["ocfl/inventory_validator.py: InventoryValidator.validate"]}
{"id": "C37", "title": "Validation accepts exactly the inventories that satisfy the rules", "statement": "Inventory validation succeeds exactly when the inventory satisfies a declarative list of rules that mentions no order of checking; in particular the verdict does not depend on the order of keys in the JSON objects.", "quantifier": "every JSON value and every reordering of the members of its objects", "why_tests_cant": "Soundness and completeness over all documents.", "anchors": ["ocfl/inventory_validator.py: InventoryValidator.validate"]}
{"id": "C38", "title": "A prior version inventory is accepted only if it describes the same history", "statement": "For two inventories that each pass validation, validate_as_prior_version gives a verdict and it is True exactly when the earlier inventory has strictly fewer versions, all of them known to the later one, and in each of them the same logical paths, each resolving in the later inventory to at least the content paths it resolved to in the earlier one, with the same digests when the digest algorithms agree.", "quantifier": "every pair of inventories", "why_tests_cant": "All pairs of inventories, including digest algorithm changes between them.", "anchors": ["ocfl/inventory_validator.py: InventoryValidator.validate_as_prior_version", "ocfl/inventory_validator.py: InventoryValidator._compare_states_for_version"]}
{"id": "C39", "title": "Object validation notices every missing or extra content file", "statement": "If object validation succeeds then the set of files under the version content directories is exactly the set of content paths in the manifest.", "quantifier": "every file tree and inventory", "why_tests_cant": "All object trees.", "anchors": ["ocfl/validator.py: Validator.validate_content", "ocfl/validator.py: Validator.validate_object"]}
{"id": "C40", "title": "Object validation notices every corrupted file", "statement": "If object validation with digest checking succeeds then every content file has the digest recorded for it in the manifest and every fixity digest also matches; so replacing the bytes of any content file of a valid object by bytes with a different digest makes validation fail.", "quantifier": "every object, every file, every replacement", "why_tests_cant": "All byte changes to all files.", "anchors": ["ocfl/validator.py: Validator.validate_content", "ocfl/validator.py: Validator.check_additional_digests"]}
{"id": "C41", "title": "Object validation ties inventory and sidecar together", "statement": "If object validation with digest checking succeeds then the root sidecar records the digest of the root inventory bytes and the head version's inventory and sidecar have the same bytes as those in the root.", "quantifier": "every object tree", "why_tests_cant": "All byte changes to inventories and sidecars.", "anchors": ["ocfl/validator.py: Validator.validate_inventory_digest", "ocfl/validator.py: Validator.validate_version_inventories"]}
{"id": "C42", "title": "Object root holds only what the specification allows", "statement": "If object validation succeeds then the object root holds exactly one declaration, the inventory and its sidecar, one directory per version, and optionally the extensions and logs directories, and nothing else.", "quantifier": "every object tree", "why_tests_cant": "All directory listings.", "anchors": ["ocfl/validator.py: Validator.validate_object_root", "ocfl/validator.py: Validator.validate_object"]}
{"id": "C43", "title": "A verdict depends only on the object being validated", "statement": "Validating an object gives the same verdict whether or not the same Validator was used for other objects before.", "quantifier": "every sequence of validations with one Validator", "why_tests_cant": "A history property of a stateful object.", "anchors": ["ocfl/validator.py: Validator.initialize", "ocfl/validator.py: Validator.validate_object", "ocfl/validation_logger.py: ValidationLogger"]}
{"id": "C44", "title": "Display options never change counts or verdicts", "statement": "num_errors and num_warnings equal the numbers of errors and warnings raised, in any order, independently of the show_errors and show_warnings options, and never decrease; messages are recorded exactly for the shown kinds.", "quantifier": "every sequence of log calls and all option values", "why_tests_cant": "All sequences.", "anchors": ["ocfl/validation_logger.py: ValidationLogger.log", "ocfl/validation_logger.py: ValidationLogger.error", "ocfl/validation_logger.py: ValidationLogger.warning"]}
{"id": "C45", "title": "Flat direct layout is injective and stays in one directory", "statement": "identifier_to_path of the flat direct layout accepts exactly identifiers that are usable as one directory name, returns them unchanged and therefore never maps two identifiers to one path or outside the storage root.", "quantifier": "every identifier", "why_tests_cant": "All strings.", "anchors": ["ocfl/layout_0002_flat_direct.py: Layout_0002_Flat_Direct.identifier_to_path", "ocfl/layout.py: Layout.check_identifier"]}
{"id": "C46", "title": "Hashed n-tuple layout is injective and safe", "statement": "For any valid configuration, identifier_to_path of the hash-and-id n-tuple layout yields a path of exactly numberOfTuples+1 components (for non-empty identifiers), none of which is empty, '.' or '..' or holds a separator, so all object paths lie inside the root and none is nested in another; two different identifiers never get the same path unless their digests collide.", "quantifier": "every configuration and every pair of identifiers", "why_tests_cant": "All identifier pairs, in particular those around the 100 character truncation.", "anchors": ["ocfl/layout_0003_hash_and_id_n_tuple.py: _percent_encode", "ocfl/layout_0003_hash_and_id_n_tuple.py: _get_encapsulation_directory", "ocfl/layout_0003_hash_and_id_n_tuple.py: _id_to_path", "ocfl/layout_0003_hash_and_id_n_tuple.py: Layout_0003_Hash_And_Id_N_Tuple.check_full_config"]}
{"id": "C47", "title": "Flat quoted layout is reversible and safe", "statement": "Decoding the path of the flat quoted layout gives back the identifier, so the layout is injective; the path is one component and never leaves the storage root.", "quantifier": "every identifier", "why_tests_cant": "All Unicode strings.", "anchors": ["ocfl/layout_nnnn_flat_quoted.py: Layout_NNNN_Flat_Quoted.identifier_to_path", "ocfl/layout.py: Layout.encode", "ocfl/layout.py: Layout.decode"]}
{"id": "C48", "title": "Tuple tree layout is injective and never nests objects", "statement": "For every tuple size the tuple tree layout maps different identifiers to different paths, and no object's path lies below another object's path.", "quantifier": "every tuple size and every pair of identifiers", "why_tests_cant": "All pairs of identifiers.", "anchors": ["ocfl/layout_nnnn_tuple_tree.py: Layout_NNNN_Tuple_Tree.identifier_to_path"]}
{"id": "C49", "title": "UUID quadtree layout is injective and refuses everything else", "statement": "The UUID quadtree layout accepts exactly identifiers made of the prefix and a canonical lower-case UUID, maps them to eight four-character components, and different identifiers to different paths.", "quantifier": "every identifier", "why_tests_cant": "All strings near the accepted form.", "anchors": ["ocfl/layout_nnnn_uuid_quadtree.py: Layout_NNNN_UUID_Quadtree.identifier_to_path"]}
{"id": "C50", "title": "Layout parameters survive writing and reading", "statement": "For every layout and every accepted parameter setting, writing the layout configuration into a storage root that has no configuration file for this layout and reading it back with a fresh layout object gives the same parameters and therefore the same identifier-to-path map; only the configuration file and the directories above it are touched. A configuration is accepted exactly when its extensionName is that of the layout and its parameters are present and in range.", "quantifier": "every layout, every accepted configuration", "why_tests_cant": "All configurations.", "anchors": ["ocfl/layout.py: Layout.write_layout_params", "ocfl/layout.py: Layout.read_layout_params", "ocfl/layout.py: Layout.check_and_set_layout_params"]}
{"id": "C51", "title": "A storage root can be reopened with the layout it was made with", "statement": "Every layout name the registry accepts yields a layout whose own declared name (which initialize writes to ocfl_layout.json) is again accepted by the registry and yields the same layout.", "quantifier": "every registered layout", "why_tests_cant": "Ties the registry, the class attributes and the file written together for all registered names.", "anchors": ["ocfl/layout_registry.py: get_layout", "ocfl/layout_registry.py: layout_is_supported", "ocfl/storage_root.py: StorageRoot.initialize"]}
{"id": "C52", "title": "A written Namaste file is found and validates", "statement": "After writing a Namaste with a given numeric tag and content, find_namastes for that tag finds exactly one more file and check_content accepts it; a file is accepted exactly when its name is the one derived from its content.", "quantifier": "every directory, tag and content string", "why_tests_cant": "All content strings including white space, punctuation and over-long ones.", "anchors": ["ocfl/namaste.py: content_to_tvalue", "ocfl/namaste.py: find_namastes", "ocfl/namaste.py: Namaste.write", "ocfl/namaste.py: Namaste.check_content"]}
{"id": "C53", "title": "Listing a storage root finds every object exactly once", "statement": "object_paths yields exactly the directories below the root that hold a supported object declaration and no file-bearing ancestor, each exactly once, never anything inside an object or under extensions, and logs an error for every other file-bearing or empty directory.", "quantifier": "every directory tree of any depth", "why_tests_cant": "All trees.", "anchors": ["ocfl/storage_root.py: StorageRoot.object_paths", "ocfl/fsw.py: fsw_walk"]}
{"id": "C54", "title": "Adding an object never overwrites and is visible afterwards", "statement": "StorageRoot.add copies the object byte for byte to the layout path, never changes any existing file of the root, refuses if the target exists, and afterwards the object is listed under that path.", "quantifier": "every storage root and object", "why_tests_cant": "All roots and objects.", "anchors": ["ocfl/storage_root.py: StorageRoot.add", "ocfl/fsw.py: fsw_copydir", "ocfl/storage_root.py: StorageRoot.list_objects"]}
{"id": "C55", "title": "A storage root is reported valid only if every object in it is valid", "statement": "StorageRoot.validate returns True only if the structure is fine and every object found in the root is valid; the command line exit status follows it.", "quantifier": "every storage root", "why_tests_cant": "All combinations of valid and invalid objects.", "anchors": ["ocfl/storage_root.py: StorageRoot.validate", "ocfl/storage_root.py: StorageRoot.validate_hierarchy", "ocfl-validate.py: do_validation"]}
{"id": "C56", "title": "Specification version settings are consistent", "statement": "check_spec_version accepts exactly the supported versions, keeps the first one set, and refuses a conflicting one; with no version given it uses the one already set or else the default.", "quantifier": "every sequence of calls", "why_tests_cant": "Stateful over all call sequences.", "anchors": ["ocfl/storage_root.py: StorageRoot.check_spec_version"]}
{"id": "C57", "title": "Directory walking visits every file exactly once", "statement": "fsw_walk from a directory yields every directory below it exactly once, parents first, and fsw_walk_files yields every file below it exactly once and nothing else.", "quantifier": "every directory tree", "why_tests_cant": "All trees of any depth and width.", "anchors": ["ocfl/fsw.py: fsw_walk", "ocfl/fsw.py: fsw_walk_files"]}
{"id": "C58", "title": "File comparison and chunked digests depend on bytes only", "statement": "fsw_files_identical returns True exactly when both files have the same bytes, for any chunk size; the digest computed by reading a file in chunks is the digest of its whole content.", "quantifier": "every pair of byte strings and every chunk size", "why_tests_cant": "All contents around chunk boundaries.", "anchors": ["ocfl/fsw.py: fsw_files_identical", "ocfl/digest.py: _file_digest"]}
{"id": "C59", "title": "Copying a directory copies exactly its files", "statement": "fsw_copydir creates at the destination exactly the files of the source tree with the same relative paths and bytes and leaves every other file alone.", "quantifier": "every source and destination tree", "why_tests_cant": "All trees.", "anchors": ["ocfl/fsw.py: fsw_copydir", "ocfl/fsw.py: fsw_copyfile", "ocfl/fsw.py: _fsw_relpath"]}
{"id": "C60", "title": "Version metadata survives the inventory", "statement": "Metadata written into an inventory version and read back by VersionMetadata.from_inventory gives the same created, message, name and address.", "quantifier": "every metadata value", "why_tests_cant": "All optional-field combinations and strings.", "anchors": ["ocfl/version_metadata.py: VersionMetadata.as_dict", "ocfl/version_metadata.py: VersionMetadata.from_inventory"]}
{"id": "C61", "title": "Timestamps round trip", "statement": "Parsing the W3C string made for any whole-second Unix time between years 1 and 9999 gives back that time.", "quantifier": "every time in range", "why_tests_cant": "Calendar arithmetic over ten thousand years.", "anchors": ["ocfl/w3c_datetime.py: datetime_to_str", "ocfl/w3c_datetime.py: str_to_datetime"]}
{"id": "C62", "title": "Time zone offsets denote the right instant", "statement": "str_to_datetime maps a string with offset +hh:mm to the instant hh:mm earlier than the same clock reading with Z, and -hh:mm to the instant hh:mm later, as W3C/RFC 3339 prescribe.", "quantifier": "every valid date-time string with an offset", "why_tests_cant": "All offsets; sample tests can encode the wrong sign as expected output.", "anchors": ["ocfl/w3c_datetime.py: str_to_datetime"]}
{"id": "C63", "title": "URI path normalisation never merges two source paths", "statement": "The 'uri' content path normalisation maps different relative source paths to different content paths, so no renaming suffix is needed, and its results never begin with a period.", "quantifier": "every pair of source paths", "why_tests_cant": "All Unicode strings.", "anchors": ["ocfl/new_version.py: NewVersion._map_filepath"]}
{"id": "C64", "title": "Object type detection is decided by the declaration alone", "statement": "find_path_type says 'object' or 'root' exactly when the directory's single 0= declaration names one of them, 'file' exactly for files, and otherwise a diagnostic; it never says 'object' for a directory without an object declaration.", "quantifier": "every directory listing", "why_tests_cant": "All listings.", "anchors": ["ocfl/object_utils.py: find_path_type"]}
{"id": "C65", "title": "Two writers cannot both complete the same version", "statement": "If two processes prepared a new version from the same inventory of one object, then under every interleaving of their file-system operations at most one of them gets past creating the version directory, as long as directory creation is atomic; the other raises without having changed any content file.", "quantifier": "every interleaving of the operations of two writers", "why_tests_cant": "All schedules.", "anchors": ["ocfl/object.py: Object.write_new_version"]}
{"id": "C66", "title": "The specification version of an object only goes up and stays consistent", "statement": "An update never lowers the specification version of an inventory, and an object whose declaration and inventories agree keeps passing the specification-version checks of object validation after any number of updates.", "quantifier": "every object and every number of updates", "why_tests_cant": "The inconsistency only shows after several updates.", "anchors": ["ocfl/new_version.py: NewVersion.next_version", "ocfl/object.py: Object.start_new_version", "ocfl/validator.py: Validator.validate_version_inventories"]}
{"id": "C67", "title": "Bag metadata round trip", "statement": "Exporting a version as a bag and importing the bag as a new version keeps identifier, message, user name and address; importing refuses a bag of another object.", "quantifier": "every metadata value", "why_tests_cant": "All combinations of present and absent fields.", "anchors": ["ocfl/bagger.py: bag_as_source", "ocfl/bagger.py: bag_extracted_version"]}
{"id": "C68", "title": "Path trimming helpers are exact", "statement": "remove_first_directory drops exactly the first path segment and joining it back gives the path; Layout.strip_root returns the part below the root exactly for paths below the root and raises otherwise.", "quantifier": "every path", "why_tests_cant": "All strings with repeated, missing and trailing separators.", "anchors": ["ocfl/object_utils.py: remove_first_directory", "ocfl/layout.py: Layout.strip_root"]}
{"id": "C69", "title": "Single-file extraction agrees with full extraction", "statement": "extract_file writes the same bytes that a full extraction of the same version puts at that logical path, and raises when the path is not in the version.", "quantifier": "every object, version and logical path", "why_tests_cant": "All states.", "anchors": ["ocfl/object.py: Object.extract_file", "ocfl/object.py: Object.extract"]}
{"id": "C70", "title": "Object validation always gives a verdict", "statement": "Validator.validate_object returns True or False for every directory tree whose JSON files have string paths; it never raises.", "quantifier": "every directory tree", "why_tests_cant": "Robustness against every malformed object.", "anchors": ["ocfl/validator.py: Validator.validate_object"]}
{"id": "C71", "title": "Every computed digest is in normal form and well formed for its algorithm", "statement": "A digest computed by file_digest/string_digest for a supported algorithm equals its own normalisation and matches the pattern that digest_regex gives for that algorithm, so that a digest the library writes is accepted by its own validator.", "quantifier": "every file content and every supported digest algorithm", "why_tests_cant": "Ranges over all contents and all algorithms; a single wrong pattern shows up only for the algorithm nobody tested.", "anchors": ["ocfl/digest.py: file_digest, string_digest, normalized_digest, digest_regex"]}
{"id": "C72", "title": "Accepted creation times are real", "statement": "If inventory validation succeeds then created of every version is an RFC 3339 date-time: an existing date, a time to the second or finer, and a time zone.", "quantifier": "every JSON value", "why_tests_cant": "All strings.", "anchors": ["ocfl/inventory_validator.py: InventoryValidator._validate_versions", "ocfl/w3c_datetime.py: str_to_datetime"]}
{"id": "C73", "title": "Object validation decides exactly the rules", "statement": "Validator.validate_object, used for the first time and without lax digests, reports an object valid exactly when the path is a directory, the declaration is right and the only one, the root inventory obeys the inventory rules and has a sidecar, the root holds only what it may, every version has its directory with nothing unexpected in it, the inventories of versions that have one agree with the root inventory, the content files are exactly those of the manifest, no content directory is empty, and (with digest checking) every recorded digest is right.", "quantifier": "every directory tree, with and without digest checking", "why_tests_cant": "Soundness and completeness of the verdict over all file trees and inventories; fixtures only sample single violations.", "anchors": ["ocfl/validator.py: Validator.validate_object", "ocfl/validator.py: Validator.validate_content", "ocfl/validator.py: Validator.validate_version_inventories"]}
{"id": "C74", "title": "Objects made by the library are valid", "statement": "After Object.create and any number of successful calls of add_version_with_content, with SHA-512 or SHA-256 each time, well-formed metadata and any files, settings and changes of algorithm, validate_object with digest checking reports the object valid; for objects that declare an older specification version this is so exactly up to the first update.", "quantifier": "every history of create and updates, every source tree", "why_tests_cant": "All histories: deduplication, normalisation, algorithm changes and forward deltas interact over any number of versions.", "anchors": ["ocfl/object.py: Object.create", "ocfl/object.py: Object.add_version_with_content", "ocfl/validator.py: Validator.validate_object"]}
{"id": "C75", "title": "The exit status of the validation command is the verdict on all paths", "statement": "ocfl-validate.py ends with exit status 0 exactly if every path given is a directory declared as an object that is valid, a directory declared as a storage root whose structure and hierarchy are in order, or a file with a valid inventory; in every other case, exceptions included, it is 1.", "quantifier": "every list of paths, every directory tree, with and without digest checking", "why_tests_cant": "All trees and all combinations of good and bad paths.", "anchors": ["ocfl-validate.py: do_validation", "ocfl/command_line_utils.py: validate_object", "ocfl/object.py: Object.validate_inventory"]}
{"id": "C76", "title": "What is said about a version stays", "statement": "After any sequence of creation, updates (also with a change of digest algorithm) and changes outside the object, extracting version k returns the identifier given at creation, and the time, message, user name and address given when version k was made.", "quantifier": "every history, every version, every metadata value", "why_tests_cant": "All histories; the blocks are copied, rehashed, sorted, written and read again at each step.", "anchors": ["ocfl/object.py: Object.extract", "ocfl/object.py: Object.start_new_version", "ocfl/version_metadata.py: VersionMetadata.from_inventory"]}
{"id": "C77", "title": "Adding a valid object to a storage root keeps it valid", "statement": "If an object passes validation with digest checking and StorageRoot.add copies it into a storage root, the copy passes validation, every other valid object stays valid, and an object made by the library goes on in the storage root as before: its versions can be extracted there and new ones can be added there.", "quantifier": "every tree of files, storage root, layout and object", "why_tests_cant": "All objects, all contents of the storage root; the copy leaves out empty directories, so that what validation depends on has to be known exactly.", "anchors": ["ocfl/storage_root.py: StorageRoot.add", "ocfl/fsw.py: fsw_copydir", "ocfl/validator.py: Validator.validate_object"]}
{"id": "C78", "title": "A storage root made by the library is valid and lists exactly what was added", "statement": "StorageRoot.initialize either raises and changes nothing, or makes a storage root with declaration, layout file and layout configuration and nothing else. After any sequence of additions of valid objects, changes outside the storage root and updates of objects that keep them valid, a new StorageRoot for it accepts its structure and finds the layout and its parameters; validate returns True and counts every object as good; list_objects gives each object that was added exactly once, with its path and identifier, and nothing else; object_path of each identifier gives the path of the object.", "quantifier": "every sequence of operations, every layout and configuration, every tree of files and every object", "why_tests_cant": "All sequences; names of objects may collide with declarations, extensions and other objects, and what is written must be read back.", "anchors": ["ocfl/storage_root.py: StorageRoot.initialize", "ocfl/storage_root.py: StorageRoot.add", "ocfl/storage_root.py: StorageRoot.validate", "ocfl/storage_root.py: StorageRoot.list_objects", "ocfl/layout_registry.py"]}
{"id": "C79", "title": "What is not there is refused with ObjectException and nothing is changed", "statement": "If the object directory, its inventory or the version does not exist, then Object.extract, Object.extract_file and Object.add_version_with_content raise ObjectException and change nothing. The same holds for extract if the directory above the destination does not exist or the destination is a directory that is not empty. If the version has no file with the logical path, then extract_file raises ObjectException, and at most creates the destination directory.", "quantifier": "every object directory, version, logical path, destination and tree of files", "why_tests_cant": "All trees of files and all names; a test can only try a few things that are missing.", "anchors": ["ocfl/object.py: Object._extract_setup", "ocfl/object.py: Object.extract", "ocfl/object.py: Object.extract_file", "ocfl/object.py: Object.open_obj_fs"]}
{"id": "C80", "title": "Building an object makes one version for each version directory", "statement": "If Object.build(srcdir, versions_metadata, objdir) returns, then the object in objdir has exactly one version for each directory of srcdir that has the name of a version; extracting a version gives exactly the files of that directory and the metadata given for its number; validation accepts the object if it declares version 1.1 of the specification or has at most two versions; and nothing changes outside objdir. If a number is missing, ObjectException is raised and nothing but the object directory is created. Without objdir nothing is changed.", "quantifier": "every source directory, number of versions, metadata, settings of the object and tree of files", "why_tests_cant": "Any number of versions, each with any tree of files; every version is built on the inventory of the one before, and files may be moved, duplicated and come back.", "anchors": ["ocfl/object.py: Object.build", "ocfl/object.py: Object.version_dirs_and_metadata", "ocfl/new_version.py: NewVersion.first_version", "ocfl/new_version.py: NewVersion.next_version"]}
{"id": "C81", "title": "Fixity digests are recorded for all content files, kept and right", "statement": "If fixity algorithms are given for an object, then after create and after each update its inventory records the digest of every content file for each of these algorithms. If none are given, then an update keeps everything recorded, and if it changes the digest algorithm, the digests of the old manifest become a fixity block of the old algorithm unless there is one. Every digest recorded is the digest of the file.", "quantifier": "every object made by the library, sequence of updates, list of fixity algorithms and change of digest algorithm", "why_tests_cant": "All histories and all trees; the block is derived from the manifest before it is recoded, and deduplication makes several paths share a digest.", "anchors": ["ocfl/object.py: Object.start_new_version", "ocfl/new_version.py: NewVersion.first_version", "ocfl/inventory.py: Inventory.add_fixity_type", "ocfl/inventory.py: Inventory.add_fixity_data"]}
{"id": "C82", "title": "Extracting a version while the object is updated", "statement": "If one process extracts a version of an object while another adds a version to it, and each of them writes only to its own directories, then an extraction that completes gives exactly the files of the version asked for, with head either the version before or the new one, an extraction that fails has written nothing to the destination, and the update is not disturbed. The extraction of a version that was there before completes.", "quantifier": "every object made by the library, update, version, destination apart from object and source, and every order of the steps of the two processes and of others working elsewhere, where files are also seen when they are written only in part", "why_tests_cant": "All interleavings, with files seen half-written; a test sees one schedule.", "anchors": ["ocfl/object.py: Object.extract", "ocfl/object.py: Object._extract_setup", "ocfl/object.py: Object.add_version_with_content", "ocfl/object.py: Object.write_inventory_and_sidecar"]}
{"id": "C83", "title": "The sidecar command", "statement": "`ocfl-sidecar.py` writes, for each directory or inventory.json named, the sidecar of the inventory there for the algorithm of that inventory (or that of --digest), with the digest of the inventory, and changes nothing else, however it ends. An object that is valid but for a missing or wrong sidecar is valid after the command, and a valid object stays valid.", "quantifier": "every file system, list of paths, digest option, object", "why_tests_cant": "All objects and path lists; that nothing else changes and that validity is restored cannot be seen from examples.", "anchors": ["ocfl-sidecar.py: create_sidecar", "ocfl-sidecar.py: main", "ocfl/object.py: Object.write_inventory_sidecar", "ocfl/object.py: Object.parse_inventory"]}
{"id": "C84", "title": "Using the object command", "statement": "After any sequence of successful `ocfl-object.py create` (or `build`) and `update` commands, with files from directories or bags and with any options, `extract` of any version gives exactly the files that were given for it and names the version, `extract --logical-path` gives exactly one of these files, `validate` says VALID, `update` names the object and the new version and keeps the digest algorithm if none is named, and the commands that only look change nothing. The exit status of `validate` tells the verdict.", "quantifier": "every sequence of commands, every argument, every file system", "why_tests_cant": "The arguments of each command are combined with each other and with the history of the object; only a proof by induction over the session covers all of them.", "anchors": ["ocfl-object.py: do_object_operation", "ocfl-object.py: print_inventory", "ocfl/command_line_utils.py: add_object_args", "ocfl/command_line_utils.py: add_version_metadata_args", "ocfl/command_line_utils.py: validate_object", "ocfl/object.py: Object.tree"]}
{"id": "C85", "title": "The tree view", "statement": "`Object.tree` shows everything in the object directory and in the version directories, each entry once and in order, with the number of files in content directories; it marks exactly what does not belong there, so that no object made by the library and no valid object is shown with marks.", "quantifier": "every object directory, every history of an object, every file system", "why_tests_cant": "Tests compare the text for single fixtures; that nothing is left out or marked wrongly concerns all directories.", "anchors": ["ocfl/object.py: Object.tree", "ocfl/fsw.py: fsw_listdir_names", "ocfl-object.py: show"]}
{"id": "C86", "title": "A repository run from the command line", "statement": "After any sequence of successful `ocfl-root.py create`, `ocfl-root.py add` and `ocfl-object.py update` commands, `ocfl-root.py list` shows exactly the objects that were added, `ocfl-root.py validate --validate-objects` says that all is VALID, and the path that `ocfl-root.py path --quiet` prints leads to an object from which `ocfl-object.py extract` gives back every version. For any directory, `validate --validate-objects` says VALID exactly if the storage root and its objects are valid. A command that is refused changes nothing.", "quantifier": "every sequence of commands of any length, every number of objects and versions, every layout but the tuple tree, every file system", "why_tests_cant": "Tests run single commands on prepared storage roots; that the commands fit together concerns every sequence of them and every object.", "anchors": ["ocfl-root.py: do_store_operation, validate, get_storage_root", "ocfl/storage_root.py: StorageRoot", "ocfl-object.py: do_object_operation"]}
{"id": "C87", "title": "What passes validation can be taken out again", "statement": "If an object passes validation, whoever made it, then `extract` of any of its versions to a place outside the object where there is nothing yet succeeds; the directory then holds the files of the version and no others; if digests were checked, each file has the digest that the inventory records for it; and nothing else in the file system changes. The same holds for `extract_file` and one logical path.", "quantifier": "every object in every file system that passes validation, every version and every logical path, every place to extract to", "why_tests_cant": "Tests extract from a few fixture objects; that the validator accepts nothing that the extractor cannot handle concerns every inventory and every tree of files.", "anchors": ["ocfl/validator.py: Validator.validate_object", "ocfl/inventory_validator.py: InventoryValidator.validate", "ocfl/object.py: extract, extract_file, _extract_setup, parse_inventory"]}
{"id": "C88", "title": "What passes validation after an interruption is complete", "statement": "If a call that writes an object (`create`, `build`, `add_version_with_content`, or `StorageRoot.add`) is interrupted at any moment, also in the middle of writing a file, and the object that is left passes validation with digests, then it is complete: every version that its inventory lists can be extracted, with exactly the files it was made from. The object is the one before the call or the one after it, and never something between that the validator takes for an object.", "quantifier": "every moment of every call that writes an object, every object, every source directory", "why_tests_cant": "Tests do not stop the program at every operation and every byte, and the set of states in which a call can be left grows with the number and size of the files.", "anchors": ["ocfl/object.py: create, build, add_version_with_content, write_new_version, extract", "ocfl/storage_root.py: StorageRoot.add", "ocfl/fsw.py: fsw_copydir", "ocfl/validator.py: Validator.validate_object"]}
{"id": "C89", "title": "Lax digests only add digest algorithms", "statement": "Validation with --lax-digests accepts every object that is accepted without it. If it accepts an object that is not accepted otherwise, then some inventory in the object has a digestAlgorithm other than sha512 and sha256 or an unknown algorithm in its fixity block. On all other objects, also broken ones, the verdict, the errors reported and the exceptions raised are the same with and without the option.", "quantifier": "every file system, every object directory in it, all other settings of the validator", "why_tests_cant": "Tests run the option on a few fixtures; that the option has no other effect concerns every object, valid or not.", "anchors": ["ocfl/inventory_validator.py: validate, _validate_fixity, _digest_regex", "ocfl/validator.py: Validator.validate_object", "ocfl-validate.py: --lax-digests"]}
{"id": "C90", "title": "Every report of the validators is documented", "statement": "Every error and warning that the validation of an object or an inventory logs has a code that begins with E or W according to its kind, and that is in the table of descriptions. Its message is the description with every place filled in by a value given with the report, followed by a link to the place in the specification.", "quantifier": "every file system and object directory, every JSON value given as an inventory, all settings, all argument values", "why_tests_cant": "Tests see the messages of the fixtures they have; codes used in rare branches are never looked up.", "anchors": ["ocfl/validation_logger.py: ValidationLogger.log", "ocfl/data/validation-errors.json", "ocfl/validator.py: calls of log.error and log.warning", "ocfl/inventory_validator.py: calls of _error and _warning"]}
{"id": "C91", "title": "The same steps give the same object, byte for byte", "statement": "Two objects that were made by the same sequence of create or build and add_version_with_content calls, with the same settings and version metadata (a creation time included) from directories with the same files, have exactly the same files with the same bytes. It does not matter where the objects and the directories are, in which order directories list their entries, what else is in the file system, what happened elsewhere between the calls, or whether an object was copied in between. It is assumed that no two different files among the sources have the same SHA-512 or SHA-256 digest.", "quantifier": "all sequences of steps of any length, all settings with SHA-512 or SHA-256, all metadata, all source trees, all places and surrounding file systems", "why_tests_cant": "Tests run on one file system with one listing order; that no list, dictionary order or path of the surroundings gets into the inventories is a statement about all of them.", "anchors": ["ocfl/new_version.py: NewVersion.add_from_srcdir", "ocfl/object.py: Object.create", "ocfl/object.py: Object.build", "ocfl/object.py: Object.add_version_with_content", "ocfl/object.py: Object.start_new_version", "ocfl/object.py: Object.write_new_version"]}
{"id": "C92", "title": "The order in which objects are added to a storage root does not matter", "statement": "If StorageRoot.add succeeds for several objects one after the other, it also succeeds for them in every other order, returns the same identifiers and paths, and afterwards every file and directory is the same. And what is in a storage root that was made by initialize and filled by add is determined by its layout, its declared version and the files in the objects: two such storage roots, filled in different orders, in different places, from different copies of the objects, are equal.", "quantifier": "all storage roots made by initialize with any layout, all numbers of objects and all orders, all surrounding file systems and changes outside of the storage root in between", "why_tests_cant": "The number of orders grows with the factorial of the number of objects, and equality has to hold for all contents and layouts.", "anchors": ["ocfl/storage_root.py: StorageRoot.add", "ocfl/storage_root.py: StorageRoot.initialize", "ocfl/storage_root.py: StorageRoot.check_root_structure", "ocfl/fsw.py: fsw_copydir"]}
{"id": "C93", "title": "Work on different objects at the same time does not interfere", "statement": "Any number of calls of Object.create, Object.add_version_with_content and Object.extract run at the same time, in processes of their own, each with a directory that it writes to which is not nested with a directory that another call reads or writes. Their steps are mixed in any order, files are written in parts, and other processes change other directories meanwhile. Then every call that succeeds gives the result that it gives when it is alone, and its directory has the contents that it has when the call is alone; and a call raises only if it raises when it is alone. Several calls may read the same source directory, and objects that nobody writes to.", "quantifier": "all finite or infinite families of calls, all objects made by the library, all contents, all interleavings and all moments in them", "why_tests_cant": "The number of interleavings grows exponentially with the number of steps, and tests run calls one after the other.", "anchors": ["ocfl/object.py: Object.create", "ocfl/object.py: Object.add_version_with_content", "ocfl/object.py: Object.write_new_version", "ocfl/object.py: Object.extract"]}
{"id": "C94", "title": "The validation report depends only on what is in the object's directory", "statement": "If two directories have the same contents (the same files with the same bytes and the same directories at the same relative paths), Validator.validate_object gives the same report for both: the same verdict and the same log entries up to their order, or the same exception. It does not matter where the directories are, what else is there, what the working directory is, or in which order the file system lists entries. This holds for every directory tree, whether it is a valid object or not.", "quantifier": "all pairs of file systems and directories with the same contents, all settings of the validator, all working directories, all listing orders", "why_tests_cant": "A test runs in one place with the listing order of one file system; the number of orders of a directory with n entries is n!, and every kind of damage to an object would have to be tried with each of them.", "anchors": ["ocfl/validator.py: Validator.validate_object", "ocfl/validator.py: Validator.validate_object_root", "ocfl/validator.py: Validator.validate_content", "ocfl/validator.py: Validator.validate_inventory_digest"]}
{"id": "C95", "title": "Logs and the contents of extensions never influence validation", "statement": "Validator.validate_object gives the same report (the same verdict and the same log entries up to their order, or the same exception) whatever is inside the logs directory of the object and inside the directories of its extensions. So tools may store anything there: it cannot make an object invalid, hide an error, or cause a warning.", "quantifier": "all object directories, valid or not, all contents of logs and of the directories of extensions, all settings of the validator", "why_tests_cant": "The contents can be any directory tree with any file names, including names that mean something elsewhere (inventory.json, version directories, declarations); a test tries a few of them in a few objects.", "anchors": ["ocfl/validator.py: Validator.validate_object", "ocfl/validator.py: Validator.validate_object_root", "ocfl/validator.py: Validator.validate_extensions_dir"]}
{"id": "C96", "title": "Without digest checks the report is the same minus the entries about digests", "statement": "For every directory for which Validator(check_digests=True).validate_object ends without an exception, Validator(check_digests=False).validate_object ends without an exception too; its log is exactly the log of the former with the entries E058b, E060, E061, E092a and E093a left out, in the same order; and the object is reported valid if and only if none of the remaining entries is an error. In particular a valid object stays valid when digests are not checked, and every error that is not about the digest of a file is still found.", "quantifier": "all directory trees, valid or damaged, all other settings of the validator, all states of the log", "why_tests_cant": "A test compares the two reports for a few objects; that no other check is skipped, reordered or depends on the digest checks has to hold for every combination of damage.", "anchors": ["ocfl/validator.py: Validator.validate_object", "ocfl/validator.py: Validator.validate_inventory_digest_match", "ocfl/validator.py: Validator.validate_content", "ocfl/validator.py: Validator.check_additional_digests"]}
{"id": "C97", "title": "The listing and the report of a storage root depend only on its contents", "statement": "If two directories have the same contents, in whatever places of whatever file systems, then StorageRoot.validate gives the same result, the same number of objects and the same number of valid objects for both, or raises an exception for both; and list_objects lists the same object directories with the same identifiers for both, or raises an exception for both. The working directory, everything outside the storage root and the order in which the operating system lists directories have no influence.", "quantifier": "all directory trees, whether they are storage roots or not, with any objects, all places, all listing orders, all settings", "why_tests_cant": "A test validates a storage root at one place on one file system; the traversal depends on the order of listings, which cannot be varied from a test, and what lies outside is unbounded.", "anchors": ["ocfl/storage_root.py: StorageRoot.validate", "ocfl/storage_root.py: StorageRoot.list_objects", "ocfl/storage_root.py: StorageRoot.object_paths", "ocfl/storage_root.py: StorageRoot.check_root_structure"]}
{"id": "C98", "title": "The log of a storage root names each fault, with its code, once", "statement": "If StorageRoot.validate ends without an exception, then its log has either exactly one entry, with the code of what is wrong with the storage root itself (E069a, E069b, E069c, E069e, E070a, E070b, E070c or E071); or the storage root itself is fine and the log has exactly one entry for each directory of the hierarchy that is empty (E073), has files but no declaration (E072), has several (E003d), has one of an unsupported version (E004a) or another one (E004b), for each file among the extensions (E086) and for each extension that is not registered (W901), each with the place where it is, and no others. The result of the first validation is True if and only if all entries are warnings.", "quantifier": "all file systems, settings and storage roots, whatever is in them", "why_tests_cant": "Which code is logged depends on the listing of every directory of the hierarchy; that nothing is left out and nothing is said twice has to hold for every tree.", "anchors": ["ocfl/storage_root.py: StorageRoot.validate", "ocfl/storage_root.py: StorageRoot.object_paths", "ocfl/storage_root.py: StorageRoot.check_root_structure", "ocfl/storage_root.py: StorageRoot.parse_layout_file", "ocfl/storage_root.py: StorageRoot.validate_extensions_dir", "ocfl/storage_root.py: StorageRoot.traversal_error"]}
{"id": "C99", "title": "Objects that are not valid are kept in the errors, up to the limit", "statement": "After StorageRoot.validate the attribute errors has at most max_errors items; each is an object of the storage root with all messages for it that are shown. Without log_warnings they are exactly objects that are not valid, min(max_errors, num_objects - good_objects) of them, so that every object that is not valid is there if there are no more than max_errors of them.", "quantifier": "all storage roots, numbers of objects, limits and settings", "why_tests_cant": "The limit, the number of objects with messages and their order can be combined without bound.", "anchors": ["ocfl/storage_root.py: StorageRoot.validate_hierarchy", "ocfl/storage_root.py: StorageRoot.validate", "ocfl/validation_logger.py: ValidationLogger.status_str"]}
{"id": "C100", "title": "No object of a valid storage root is of a later version than the storage root", "statement": "If StorageRoot.validate returns True and counts all objects as good, then no object of the storage root declares a later version of OCFL than the storage root does (E081 of the specification).", "quantifier": "all storage roots, whatever objects are in them and however they got there", "why_tests_cant": "It depends on the declarations of every directory of a hierarchy of any depth and size.", "anchors": ["ocfl/storage_root.py: StorageRoot.validate_hierarchy", "ocfl/storage_root.py: StorageRoot.validate", "ocfl/storage_root.py: StorageRoot.add", "ocfl/constants.py: SPEC_VERSIONS_SUPPORTED"]}
{"id": "C101", "title": "Calls on one Object do not influence each other", "statement": "If several methods (create, build, add_version_with_content, tree, validate, extract, extract_file) are called on one Object, then each call has the effect on the file system and the result that it has on a new Object made with the same arguments.", "quantifier": "all sequences of calls of any length, all settings, objects, source trees and file systems, whether calls succeed or raise", "why_tests_cant": "Which attribute one call leaves behind for which other call depends on the whole sequence and on what the objects contain; tests use a new Object for each step.", "anchors": ["ocfl/object.py: Object.parse_inventory", "ocfl/object.py: Object.tree", "ocfl/object.py: Object.create", "ocfl/object.py: Object.build", "ocfl/object.py: Object.extract", "ocfl/object.py: Object.add_version_with_content"]}
{"id": "C102", "title": "Calls on one StorageRoot do not influence each other", "statement": "If several methods (list_objects, validate, object_path, add) are called on one StorageRoot, then each call has the effect on the file system and the result that it has on a new StorageRoot made with the same arguments.", "quantifier": "all sequences of calls of any length, all arguments, and all file systems found by each call", "why_tests_cant": "Which attribute (counters, cached layout, log) one call leaves behind for which other call depends on the whole sequence and on the contents of the storage root; tests use a new StorageRoot for each step.", "anchors": ["ocfl/storage_root.py: StorageRoot.layout", "ocfl/storage_root.py: StorageRoot.object_path", "ocfl/storage_root.py: StorageRoot.check_root_structure", "ocfl/storage_root.py: StorageRoot.traversal_error", "ocfl/storage_root.py: StorageRoot.list_objects", "ocfl/storage_root.py: StorageRoot.validate", "ocfl/storage_root.py: StorageRoot.add"]}
{"id": "C103", "title": "What is said about a new version, and when, does not matter to its contents", "statement": "The properties created, message, user_name and user_address of a NewVersion may be assigned at any time between add, delete and rename: these have the same outcomes and effects as without, each property ends up with the value assigned last, no other version and nothing else of the inventory is changed, and the result is the same as if the values had been given as metadata when the version was started.", "quantifier": "all sequences of assignments and calls of any length, all values, all new versions, first or later", "why_tests_cant": "Tests assign the properties once and in one place; the claim is about all interleavings with operations that succeed or are refused.", "anchors": ["ocfl/new_version.py: NewVersion.created", "ocfl/new_version.py: NewVersion.message", "ocfl/new_version.py: NewVersion.user_address", "ocfl/new_version.py: NewVersion.user_name", "ocfl/inventory.py: Version.user_add_if_not_present", "ocfl/inventory.py: Inventory.versiondata"]}
{"id": "C104", "title": "Inventories do not share data", "statement": "An Inventory made from other data is separate from it, and the versions of inventories are separate from each other: a call on an Inventory (add_version, assignments to properties of its versions, add_file_to_manifest) has its effect on that inventory and on no other, whatever a program does with its inventories in between.", "quantifier": "all programs that make, copy and change inventories, of any length, all inventories and metadata", "why_tests_cant": "Sharing of mutable objects shows only if two inventories or versions are made from the same object and one is changed later; tests compare one inventory right after it is made.", "anchors": ["ocfl/inventory.py: Inventory.__init__", "ocfl/inventory.py: Inventory.add_version", "ocfl/inventory.py: Inventory.versiondata"]}
{"id": "C105", "title": "An inventory keeps what the library does not know", "statement": "An Inventory read from a JSON document may contain keys that the library does not know: in the inventory, in a version and in a user block. Any sequence of calls that change it (assignments to its properties and those of its versions, add_version, add_file_to_manifest, add_fixity_type, add_fixity_data, normalize_digests, add_file, delete_logical_path), whether they succeed or raise, has the documented effect on the keys that are known and leaves the values of all other keys as they were; no version is lost, and add_version without a name never uses the name of a version that is there.", "quantifier": "all inventory documents in which the values of known keys are of the right type, all sequences of calls of any length, all arguments", "why_tests_cant": "The fixtures contain only keys the library knows, and a call that replaced a block instead of changing it would pass all of them.", "anchors": ["ocfl/inventory.py: Inventory", "ocfl/inventory.py: Inventory.add_version", "ocfl/inventory.py: Inventory.normalize_digests", "ocfl/inventory.py: Version", "ocfl/inventory.py: Version.add_file", "ocfl/inventory.py: Version.delete_logical_path"]}
{"id": "C106", "title": "A new version keeps what the library does not know", "statement": "NewVersion.next_version on an inventory with keys that the library does not know, followed by any sequence of add, delete, rename and assignments to the properties of the version, whether they succeed or raise, keeps the values of those keys in the inventory, in all earlier versions and in their user blocks, and loses no version; apart from that the calls have the effects and raise the exceptions that they have on an inventory without such keys.", "quantifier": "all inventory documents in which the values of known keys are of the right type, all arguments of next_version, all sequences of calls of any length", "why_tests_cant": "The fixtures contain only keys the library knows.", "anchors": ["ocfl/new_version.py: NewVersion.next_version", "ocfl/new_version.py: NewVersion.add", "ocfl/new_version.py: NewVersion.delete", "ocfl/new_version.py: NewVersion.rename", "ocfl/inventory.py: Version.state_add_if_not_present"]}
{"id": "C107", "title": "Validation of an inventory and keys that OCFL does not specify", "statement": "InventoryValidator.validate reports an error (E102) for an inventory with a key that OCFL does not specify, be it in the inventory, in a version or in a user block; apart from that its verdict, the errors and warnings it reports and the values it finds depend only on the values of the specified keys, not on the order of keys in the inventory, in a version or in a user block.", "quantifier": "all pairs of JSON documents that differ only in keys that are not specified and in the order of keys, both modes, all specification versions", "why_tests_cant": "The fixtures contain only specified keys, in the order in which the library writes them.", "anchors": ["ocfl/inventory_validator.py: InventoryValidator.validate", "ocfl/inventory_validator.py: InventoryValidator._validate_versions"]}
{"id": "C108", "title": "A valid object can be taken back to each of its versions", "statement": "If Validator.validate_object reports an object valid, digests being checked, and one of its earlier versions has an inventory in its version directory, then the object that results from copying that inventory and its sidecar to the object root, removing the directories of the later versions and declaring the OCFL version that the inventory names is reported valid too; for objects made with Object.create and add_version_with_content, every version that is left is then extracted by Object.extract as it was.", "quantifier": "all well-formed file systems, objects with any number of versions and any inventories, all earlier versions; for objects made by the library all histories of updates, also with changes of the digest algorithm", "why_tests_cant": "The fixtures never take an object back to an earlier version, and whether the inventories of earlier versions describe complete objects is a property of all histories.", "anchors": ["ocfl/validator.py: Validator.validate_object", "ocfl/validator.py: Validator.validate_version_inventories", "ocfl/object.py: Object.add_version_with_content", "ocfl/object.py: Object.extract"]}
{"id": "C109", "title": "Prior versions are ordered", "statement": "For inventories that InventoryValidator.validate accepts, the relation given by validate_as_prior_version returning True is a strict order: no inventory is a prior version of itself, two are never prior versions of each other, and a prior version of a prior version is a prior version, so that comparing neighbours in a history is enough. In an object that Validator.validate_object reports valid the inventories of its versions are ordered in this way among each other, not only with respect to the root inventory.", "quantifier": "all accepted inventories (JSON documents), all series of them; all valid objects with any number of versions", "why_tests_cant": "Tests compare two given inventories; that the relation composes, and that comparing all inventories with the root inventory only is enough, are statements about all series of inventories.", "anchors": ["ocfl/inventory_validator.py: InventoryValidator.validate_as_prior_version", "ocfl/validator.py: Validator.validate_version_inventories"]}
{"id": "C110", "title": "Namaste files with plain directories", "statement": "Without a fsw file system, Namaste(d, content).write(dir) followed by get_namaste(d, dir) gives the Namaste with the tvalue of the content and content_ok(dir) is True, if the directory had no Namaste file with that tag; get_namaste gives the tvalue of the only file with the tag and raises NamasteException if there is none or more than one, and content_ok gives a verdict; all also for the default of dir.", "quantifier": "all well-formed file systems, directories, tags and contents; any tr_func for content_ok", "why_tests_cant": "The tests use a few fixture directories; which directory contents give an exception and which contents pass the check is a matter of all of them.", "anchors": ["ocfl/namaste.py: get_namaste", "ocfl/namaste.py: find_namastes", "ocfl/namaste.py: Namaste.write", "ocfl/namaste.py: Namaste.content_ok"]}
{"id": "C111", "title": "An object keeps each content once", "statement": "With dedupe and forward_delta left on, an object made by create or build and any number of add_version_with_content has, for every content of a file of one of its versions, exactly one content file with those bytes, and no other content files: whatever paths the content had, in how many versions, and whichever digest algorithms were used.", "quantifier": "all histories of create/build and updates from any source trees, with any settings but those two, with changes elsewhere and copies of the object in between", "why_tests_cant": "The tests count files in a few fixed objects; that no sequence of updates, changes of the digest algorithm or arrangement of paths stores a content twice is a statement about all histories.", "anchors": ["ocfl/new_version.py: NewVersion.add", "ocfl/object.py: Object.create", "ocfl/object.py: Object.build", "ocfl/object.py: Object.add_version_with_content"]}
{"id": "C112", "title": "An object can be taken apart and built again", "statement": "Extracting the versions of an object one after the other, each to the directory of its name in an empty directory, always succeeds and leaves a source for build: the version directories are v1 to v<n>, each has exactly the files of its version, and nothing outside is changed. If build then makes a second object from that directory, with any settings, every version of the second object extracts to the same files as that version of the first.", "quantifier": "all objects with a history of create, build and updates, all numbers of versions up to 99999, all destinations outside the object, all settings and metadata of the second object", "why_tests_cant": "The tests build from fixed directories and extract single versions of fixed objects; that the two are inverse for every history needs the equality of all trees, and that n extractions in a row do not disturb each other.", "anchors": ["ocfl/object.py: Object.extract", "ocfl/object.py: Object.build", "ocfl/object.py: Object._extract_setup"]}
{"id": "C113", "title": "Archiving does not fail half-way", "statement": "create on an Object with an identifier and supported settings, with a source directory and a parent of the object directory that exist and nothing in the way, always returns an inventory; if the source has a file, extract then gives exactly the source files back. Without an identifier, a source directory or a parent of the object directory it raises and changes nothing.", "quantifier": "all settings, source trees, metadata blocks, file systems, object directories and destinations", "why_tests_cant": "The tests create a few fixed objects; that no combination of file names, normalisation, deduplication and digests makes a step of the writing collide with an earlier one is a statement about all trees.", "anchors": ["ocfl/object.py: Object.create", "ocfl/object.py: Object.copy_into_object", "ocfl/object.py: Object.write_inventory_and_sidecar", "ocfl/new_version.py: NewVersion.add"]}
{"id": "C114", "title": "Building does not fail half-way", "statement": "build on an Object with an identifier and supported settings, from a directory with the version directories v1 to v<n> and a file in the first, with a parent of the object directory that exists and nothing in the way, always returns an inventory, and extract of every version then gives exactly the files of its version directory. Without an identifier or a parent of the object directory it raises and changes nothing.", "quantifier": "all settings, numbers of versions, source trees, metadata, file systems, object directories and destinations", "why_tests_cant": "The tests build a few fixed sources; that no round of the loop can collide with what earlier rounds wrote, for any sequence of trees and any deduplication across versions, needs an invariant of the loop.", "anchors": ["ocfl/object.py: Object.build", "ocfl/object.py: Object.version_dirs_and_metadata", "ocfl/new_version.py: NewVersion.next_version", "ocfl/object.py: Object.write_inventory_and_sidecar"]}
{"id": "C115", "title": "An update does not fail half-way", "statement": "add_version_with_content on an object made by the library, with a source directory that exists, gives a new version exactly if the object declares version 1.1 or has at most two versions, and extract of the head then gives exactly the source files. When it raises it has changed nothing. This also holds when the update changes the digest algorithm. With abort_if_no_difference it gives None and changes nothing if the source directory has the files of the last version, and otherwise a new version.", "quantifier": "all histories of objects, settings, source trees, metadata, file systems and destinations", "why_tests_cant": "The tests update a few fixture objects; that no path chosen for new content, and no step of writing the version, can fail for any history and any source tree needs an invariant of all objects the library makes.", "anchors": ["ocfl/object.py: Object.add_version_with_content", "ocfl/object.py: Object.start_new_version", "ocfl/object.py: Object.write_new_version", "ocfl/new_version.py: NewVersion.add_from_srcdir"]}
{"id": "C116", "title": "An object can be updated again and again", "statement": "An object made by the library that declares version 1.1 can be updated any number of times, up to version 99999, each time with other settings, with another digest algorithm and from any existing source directory apart from the object: none of the calls of add_version_with_content raises, nothing outside the object changes, and afterwards the object passes validation and extract of every version, old or new, gives exactly the files the version was made from.", "quantifier": "all histories of objects, all series of updates (of any length) with their settings, source trees and metadata, all file systems and destinations", "why_tests_cant": "The tests make one or two updates of fixture objects; that a long series with changing digest algorithms never reaches a state from which an update fails, or in which an old version is lost, needs an induction over the series.", "anchors": ["ocfl/object.py: Object.add_version_with_content", "ocfl/object.py: Object.write_new_version", "ocfl/object.py: Object.extract"]}
{"id": "C117", "title": "The life of an object", "statement": "create for version 1.1 from a source directory with a file, followed by any number of calls of add_version_with_content with sources apart from the object: no call raises, nothing outside the object directory changes, the object passes validation in the end, and extract of version k gives exactly the files of the k-th source directory.", "quantifier": "all settings, source trees, metadata, file systems, object directories, series of updates of any length and destinations", "why_tests_cant": "The tests use fixtures with at most a few versions; that the whole sequence from an empty place on disk to any number of versions works, whatever the trees and settings, is a statement about all sequences.", "anchors": ["ocfl/object.py: Object.create", "ocfl/object.py: Object.add_version_with_content", "ocfl/object.py: Object.validate", "ocfl/object.py: Object.extract"]}
