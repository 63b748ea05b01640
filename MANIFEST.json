{
 "claims": [
  {
   "property": "C01",
   "status": "proved",
   "theorems": [
    "Cdtb.C01_operators",
    "Cdtb.C01_trichotomy",
    "Cdtb.C01_le_iff",
    "Cdtb.C01_lt_trans",
    "Cdtb.C01_parsed",
    "Cdtb.C01_noncanonical",
    "Cdtb.C01_hash"
   ],
   "note": "Versions are totally ordered, and order agrees with equality on canonical versions"
  },
  {
   "property": "C02",
   "status": "proved",
   "theorems": [
    "Cdtb.C02_roundtrip",
    "Cdtb.C02_text_kept",
    "Cdtb.C02_rejects",
    "Cdtb.C02_rejects_text",
    "Cdtb.C02_patch_truncates_tuple",
    "Cdtb.C02_patch_truncates_text",
    "Cdtb.C02_patch_short",
    "Cdtb.C02_patch_shape",
    "Cdtb.C02_main",
    "Cdtb.C02_as_int",
    "Cdtb.C02_as_int_boundary",
    "Cdtb.C02_spelling_boundary"
   ],
   "note": "Version text round-trips; patch versions depend only on their first two numbers"
  },
  {
   "property": "C03",
   "status": "proved",
   "theorems": [
    "Cdtb.C03_refines_flat",
    "Cdtb.C03_chunking_irrelevant",
    "Cdtb.C03_skip_read",
    "Cdtb.C03_short_and_backwards"
   ],
   "note": "Streaming reads do not depend on how the network chunks the data"
  },
  {
   "property": "C04",
   "status": "proved",
   "theorems": [
    "Cdtb.C04_success",
    "Cdtb.C04_failure",
    "Cdtb.C04_no_swallow",
    "Cdtb.C04_no_fault",
    "Cdtb.C04_frame",
    "Cdtb.C04_residue",
    "Cdtb.C04_bare_name"
   ],
   "note": "A failed write leaves no partial file and touches nothing else"
  },
  {
   "property": "C05",
   "status": "proved",
   "theorems": [
    "Cdtb.C05_present",
    "Cdtb.C05_success",
    "Cdtb.C05_frame",
    "Cdtb.C05_where",
    "Cdtb.C05_request_error",
    "Cdtb.C05_failure",
    "Cdtb.C05_history",
    "Cdtb.C05_repeat",
    "Cdtb.C05_success_then_repeat",
    "Cdtb.C05_crash_boundary"
   ],
   "note": "Downloads are idempotent and never leave truncated files behind"
  },
  {
   "property": "C06",
   "status": "proved",
   "theorems": [
    "Cdtb.C06_schedule_independent",
    "Cdtb.C06_no_blocking",
    "Cdtb.C06_frame",
    "Cdtb.C06_contents"
   ],
   "note": "Parallel bundle download is schedule-independent"
  },
  {
   "property": "C07",
   "status": "proved",
   "theorems": [
    "Cdtb.C07_patches",
    "Cdtb.C07_newest",
    "Cdtb.C07_unique",
    "Cdtb.C07_decreasing",
    "Cdtb.C07_boundary"
   ],
   "note": "patches() groups consecutive elements by version and keeps the newest of each name"
  },
  {
   "property": "C08",
   "status": "proved",
   "theorems": [
    "Cdtb.C08_element",
    "Cdtb.C08_patch",
    "Cdtb.C08_latest_patch",
    "Cdtb.C08_patch_found",
    "Cdtb.C08_latest",
    "Cdtb.C08_agree"
   ],
   "note": "Looking up a patch or an element returns the newest match, or None"
  },
  {
   "property": "C09",
   "status": "proved",
   "theorems": [
    "Cdtb.C09_match",
    "Cdtb.C09_reject",
    "Cdtb.C09_request"
   ],
   "note": "Component strings are accepted exactly per the documented grammar"
  },
  {
   "property": "C10",
   "status": "proved",
   "theorems": [
    "Cdtb.C10_decode",
    "Cdtb.C10_truncated",
    "Cdtb.C10_reject"
   ],
   "note": "WAD headers of every supported version decode to exactly the entries encoded"
  },
  {
   "property": "C11",
   "status": "proved",
   "theorems": [
    "Cdtb.C11_raw",
    "Cdtb.C11_gzip",
    "Cdtb.C11_zstd",
    "Cdtb.C11_redirect",
    "Cdtb.C11_no_toc",
    "Cdtb.C11_unsupported",
    "Cdtb.C11_subchunks",
    "Cdtb.C11_corrupted",
    "Cdtb.C11_read_file_data",
    "Cdtb.C11_toc"
   ],
   "note": "Reading a WAD entry returns exactly its data or an error, never corrupted subchunks"
  },
  {
   "property": "C12",
   "status": "proved",
   "theorems": [
    "Cdtb.C12_keeps",
    "Cdtb.C12_name",
    "Cdtb.C12_distinct"
   ],
   "note": "Unknown files get distinct, deterministic names"
  },
  {
   "property": "C13",
   "status": "proved",
   "theorems": [
    "Cdtb.C13_only_path",
    "Cdtb.C13_extension",
    "Cdtb.C13_short",
    "Cdtb.C13_long",
    "Cdtb.C13_boundary",
    "Cdtb.C13_limit"
   ],
   "note": "Sanitized paths have an extension and fit in 250 characters"
  },
  {
   "property": "C14",
   "status": "proved",
   "theorems": [
    "Cdtb.C14_frame",
    "Cdtb.C14_written",
    "Cdtb.C14_no_swallow",
    "Cdtb.C14_lazy",
    "Cdtb.C14_lazy_written",
    "Cdtb.C14_bad_name",
    "Cdtb.C14_other_error"
   ],
   "note": "Extracting a WAD writes every readable file once, and lazy extraction never modifies existing files"
  },
  {
   "property": "C15",
   "status": "proved",
   "theorems": [
    "Cdtb.C15_longest",
    "Cdtb.C15_signature",
    "Cdtb.C15_jpeg",
    "Cdtb.C15_other",
    "Cdtb.C15_reachable"
   ],
   "note": "Extension guessing follows the magic-number table with first match priority"
  },
  {
   "property": "C16",
   "status": "proved",
   "theorems": [
    "Cdtb.C16_wad",
    "Cdtb.C16_sequence",
    "Cdtb.C16_process",
    "Cdtb.C16_known",
    "Cdtb.C16_first_wins"
   ],
   "note": "The cross-WAD extension cache is transparent"
  },
  {
   "property": "C17",
   "status": "proved",
   "theorems": [
    "Cdtb.C17_decode",
    "Cdtb.C17_distinct",
    "Cdtb.C17_utf8",
    "Cdtb.C17_unterminated",
    "Cdtb.C17_reject"
   ],
   "note": "RST string tables decode every entry"
  },
  {
   "property": "C18",
   "status": "proved",
   "theorems": [
    "Cdtb.C18_agree",
    "Cdtb.C18_case",
    "Cdtb.C18_int",
    "Cdtb.C18_str",
    "Cdtb.C18_other"
   ],
   "note": "RST lookups are consistent and case-insensitive"
  },
  {
   "property": "C19",
   "status": "proved",
   "theorems": [
    "Cdtb.C19_mid",
    "Cdtb.C19_v4",
    "Cdtb.C19_old",
    "Cdtb.C19_magic",
    "Cdtb.C19_obj",
    "Cdtb.C19_boundary"
   ],
   "note": "Exported OBJ faces reference the right vertices"
  },
  {
   "property": "C20",
   "status": "proved",
   "theorems": [
    "Cdtb.C20_fnv",
    "Cdtb.C20_non_ascii",
    "Cdtb.C20_width",
    "Cdtb.C20_case",
    "Cdtb.C20_incremental",
    "Cdtb.C20_last"
   ],
   "note": "The BIN hash is FNV-1a on the lowercased ASCII name"
  },
  {
   "property": "C21",
   "status": "proved",
   "theorems": [
    "Cdtb.C21_code",
    "Cdtb.C21_reject",
    "Cdtb.C21_injective",
    "Cdtb.C21_types",
    "Cdtb.C21_default"
   ],
   "note": "BIN type codes of every game era map to the right types"
  },
  {
   "property": "C22",
   "status": "proved",
   "theorems": [
    "Cdtb.C22_value",
    "Cdtb.C22_file",
    "Cdtb.C22_wrong_length",
    "Cdtb.C22_magic",
    "Cdtb.C22_map_last",
    "Cdtb.C22_keys",
    "Cdtb.C22_float_keys",
    "Cdtb.C22_fuel"
   ],
   "note": "BIN files decode to exactly the values encoded, at any nesting depth"
  },
  {
   "property": "C23",
   "status": "proved",
   "theorems": [
    "Cdtb.C23_get",
    "Cdtb.C23_agree",
    "Cdtb.C23_non_ascii",
    "Cdtb.C23_case",
    "Cdtb.C23_set",
    "Cdtb.C23_history",
    "Cdtb.C23_path",
    "Cdtb.C23_values",
    "Cdtb.C23_getv"
   ],
   "note": "Field access on BIN objects behaves like an ordered map"
  },
  {
   "property": "C24",
   "status": "proved",
   "theorems": [
    "Cdtb.C24_display",
    "Cdtb.C24_display_distinct",
    "Cdtb.C24_display_length",
    "Cdtb.C24_object",
    "Cdtb.C24_null",
    "Cdtb.C24_lossless",
    "Cdtb.C24_total",
    "Cdtb.C24_container_key",
    "Cdtb.C24_map_collision",
    "Cdtb.C24_file"
   ],
   "note": "JSON serialization of BIN objects loses no field unless names collide"
  },
  {
   "property": "C25",
   "status": "proved",
   "theorems": [
    "Cdtb.C25_hashed",
    "Cdtb.C25_symmetric",
    "Cdtb.C25_unresolved",
    "Cdtb.C25_unresolved_case",
    "Cdtb.C25_resolved",
    "Cdtb.C25_boundary",
    "Cdtb.C25_other"
   ],
   "note": "Comparing a hashed BIN name with a string"
  },
  {
   "property": "C26",
   "status": "proved",
   "theorems": [
    "Cdtb.C26_reduce",
    "Cdtb.C26_missing",
    "Cdtb.C26_conflict"
   ],
   "note": "Reduced symlink paths cover exactly the unchanged files"
  },
  {
   "property": "C27",
   "status": "proved",
   "theorems": [
    "Cdtb.C27_plain",
    "Cdtb.C27_new_wad",
    "Cdtb.C27_same_wad",
    "Cdtb.C27_wad_files",
    "Cdtb.C27_no_checksum",
    "Cdtb.C27_only_removes"
   ],
   "note": "Filtering against a previous export drops exactly the identical files"
  },
  {
   "property": "C28",
   "status": "proved",
   "theorems": [
    "Cdtb.C28_clean",
    "Cdtb.C28_boundary"
   ],
   "note": "Cleaning the output removes exactly the extra files"
  },
  {
   "property": "C29",
   "status": "proved",
   "theorems": [
    "Cdtb.C29_symlinks",
    "Cdtb.C29_no_symlinks",
    "Cdtb.C29_missing",
    "Cdtb.C29_language_boundary"
   ],
   "note": "A symlinked export provides every exported path exactly once"
  },
  {
   "property": "C30",
   "status": "proved",
   "theorems": [
    "Cdtb.C30_directory",
    "Cdtb.C30_bad_directory",
    "Cdtb.C30_main"
   ],
   "note": "Updating an export directory pairs each patch with the next older one"
  },
  {
   "property": "C31",
   "status": "proved",
   "theorems": [
    "Cdtb.C31_image",
    "Cdtb.C31_mipmaps",
    "Cdtb.C31_errors",
    "Cdtb.C31_boundary"
   ],
   "note": "TEX to DDS conversion keeps dimensions and the largest mipmap"
  },
  {
   "property": "C32",
   "status": "proved",
   "theorems": [
    "Cdtb.C32_atlas_text",
    "Cdtb.C32_atlas_hashed",
    "Cdtb.C32_atlas_index",
    "Cdtb.C32_skins",
    "Cdtb.C32_skins_errors",
    "Cdtb.C32_truncated"
   ],
   "note": "Atlas and champion skin information decode to exactly what was encoded"
  },
  {
   "property": "C33",
   "status": "proved",
   "theorems": [
    "Cdtb.C33_offsets",
    "Cdtb.C33_load",
    "Cdtb.C33_extract"
   ],
   "note": "Bundle chunks are located exactly"
  },
  {
   "property": "C34",
   "status": "proved",
   "theorems": [
    "Cdtb.C34_history",
    "Cdtb.C34_success",
    "Cdtb.C34_shared",
    "Cdtb.C34_fresh",
    "Cdtb.C34_trusted_store",
    "Cdtb.C34_no_overwrite"
   ],
   "note": "The shared extracted-file store always holds correct contents"
  },
  {
   "property": "C35",
   "status": "proved",
   "theorems": [
    "Cdtb.C35_bundles",
    "Cdtb.C35_complete",
    "Cdtb.C35_names"
   ],
   "note": "Downloading then extracting an element never misses a bundle"
  },
  {
   "property": "C36",
   "status": "proved",
   "theorems": [
    "Cdtb.C36_body",
    "Cdtb.C36_missing",
    "Cdtb.C36_cycle",
    "Cdtb.C36_bound",
    "Cdtb.C36_file",
    "Cdtb.C36_bad_file"
   ],
   "note": "Manifest file names are the full directory path"
  },
  {
   "property": "C37",
   "status": "proved",
   "theorems": [
    "Cdtb.C37_fields",
    "Cdtb.C37_table",
    "Cdtb.C37_bad_table"
   ],
   "note": "Manifest field tables decode present and absent fields"
  },
  {
   "property": "C38",
   "status": "proved",
   "theorems": [
    "Cdtb.C38_same",
    "Cdtb.C38_no_urls",
    "Cdtb.C38_new",
    "Cdtb.C38_pointer",
    "Cdtb.C38_crash_pointer",
    "Cdtb.C38_same_second",
    "Cdtb.C38_history",
    "Cdtb.C38_urls",
    "Cdtb.C38_elements",
    "Cdtb.C38_succeeds"
   ],
   "note": "Fetching updates records each distinct release once"
  },
  {
   "property": "C39",
   "status": "proved",
   "theorems": [
    "Cdtb.C39_select",
    "Cdtb.C39_cover",
    "Cdtb.C39_exclusive",
    "Cdtb.C39_overlap"
   ],
   "note": "Language filters select exactly the right files"
  },
  {
   "property": "C40",
   "status": "proved",
   "theorems": [
    "Cdtb.C40_no_loss",
    "Cdtb.C40_merge",
    "Cdtb.C40_elements",
    "Cdtb.C40_versions",
    "Cdtb.C40_main"
   ],
   "note": "RADS patch elements are merged newest first without loss"
  },
  {
   "property": "C41",
   "status": "proved",
   "theorems": [
    "Cdtb.C41_success",
    "Cdtb.C41_failure",
    "Cdtb.C41_history",
    "Cdtb.C41_overlap",
    "Cdtb.C41_complete",
    "Cdtb.C41_independent",
    "Cdtb.C41_empty_entry"
   ],
   "note": "RADS extraction writes each file's exact bytes whatever the manifest order and chunking"
  },
  {
   "property": "C42",
   "status": "proved",
   "theorems": [
    "Cdtb.C42_decode",
    "Cdtb.C42_undeclared",
    "Cdtb.C42_header",
    "Cdtb.C42_text",
    "Cdtb.C42_projects"
   ],
   "note": "Solution manifests decode to the dependency map"
  },
  {
   "property": "C43",
   "status": "proved",
   "theorems": [
    "Cdtb.C43_line",
    "Cdtb.C43_fields",
    "Cdtb.C43_manifest",
    "Cdtb.C43_magic",
    "Cdtb.C43_files",
    "Cdtb.C43_relpath",
    "Cdtb.C43_relpath_short"
   ],
   "note": "Package manifest lines and export paths decode exactly"
  },
  {
   "property": "C44",
   "status": "proved",
   "theorems": [
    "Cdtb.C44_text",
    "Cdtb.C44_roundtrip",
    "Cdtb.C44_stable",
    "Cdtb.C44_last_wins",
    "Cdtb.C44_load",
    "Cdtb.C44_interrupted",
    "Cdtb.C44_interrupted_cut"
   ],
   "note": "Hash files round-trip through save and load"
  },
  {
   "property": "C45",
   "status": "proved",
   "theorems": [
    "Cdtb.C45_safe",
    "Cdtb.C45_unknown",
    "Cdtb.C45_is_known"
   ],
   "note": "Hash guessing never corrupts the hash table"
  },
  {
   "property": "C46",
   "status": "proved",
   "theorems": [
    "Cdtb.C46_resolved",
    "Cdtb.C46_order",
    "Cdtb.C46_calls",
    "Cdtb.C46_text"
   ],
   "note": "Hash guessing finds the same hashes in any candidate order"
  },
  {
   "property": "C47",
   "status": "proved",
   "theorems": [
    "Cdtb.C47_terminates",
    "Cdtb.C47_ancestors",
    "Cdtb.C47_components",
    "Cdtb.C47_cached"
   ],
   "note": "directory_list returns all ancestor directories"
  },
  {
   "property": "C48",
   "status": "proved",
   "theorems": [
    "Cdtb.C48_words",
    "Cdtb.C48_sorted",
    "Cdtb.C48_set"
   ],
   "note": "Word lists contain exactly the words of the paths"
  },
  {
   "property": "C49",
   "status": "proved",
   "theorems": [
    "Cdtb.C49_texture",
    "Cdtb.C49_other",
    "Cdtb.C49_lower",
    "Cdtb.C49_idempotent",
    "Cdtb.C49_directory"
   ],
   "note": "Asset path conversion lowercases and maps textures to PNG"
  },
  {
   "property": "C50",
   "status": "proved",
   "theorems": [
    "Cdtb.C50_url",
    "Cdtb.C50_without_secure",
    "Cdtb.C50_same_path",
    "Cdtb.C50_ids",
    "Cdtb.C50_negative",
    "Cdtb.C50_stored"
   ],
   "note": "Manifest URLs are mapped to the same path as on the CDN"
  },
  {
   "property": "C51",
   "status": "proved",
   "theorems": [
    "Cdtb.C51_text",
    "Cdtb.C51_first_line",
    "Cdtb.C51_no_line_break",
    "Cdtb.C51_crlf",
    "Cdtb.C51_malformed",
    "Cdtb.C51_rst"
   ],
   "note": "Text translation tables are decoded except for their first line"
  },
  {
   "property": "C52",
   "status": "proved",
   "theorems": [
    "Cdtb.C52_no_patch",
    "Cdtb.C52_from",
    "Cdtb.C52_patch",
    "Cdtb.C52_not_found",
    "Cdtb.C52_guess_failures"
   ],
   "note": "The multi-patch export command"
  },
  {
   "property": "C53",
   "status": "proved",
   "theorems": [
    "Cdtb.C53_missing_path",
    "Cdtb.C53_type_path",
    "Cdtb.C53_no_type",
    "Cdtb.C53_conf_file",
    "Cdtb.C53_guess",
    "Cdtb.C53_types",
    "Cdtb.C53_rads",
    "Cdtb.C53_patchline",
    "Cdtb.C53_path",
    "Cdtb.C53_default"
   ],
   "note": "Storage selection from command line and paths"
  },
  {
   "property": "C54",
   "status": "proved",
   "theorems": [
    "Cdtb.C54_set_data",
    "Cdtb.C54_sets",
    "Cdtb.C54_items",
    "Cdtb.C54_composition",
    "Cdtb.C54_items_error",
    "Cdtb.C54_traits",
    "Cdtb.C54_champions",
    "Cdtb.C54_rest",
    "Cdtb.C54_translated",
    "Cdtb.C54_table",
    "Cdtb.C54_rst_table",
    "Cdtb.C54_languages",
    "Cdtb.C54_failure"
   ],
   "note": "TFT output: sets only contain known champions and translations are applied"
  },
  {
   "property": "C55",
   "status": "proved",
   "theorems": [
    "Cdtb.C55_basenames",
    "Cdtb.C55_substitute_basenames",
    "Cdtb.C55_root",
    "Cdtb.C55_extensions",
    "Cdtb.C55_prefixes",
    "Cdtb.C55_from_game",
    "Cdtb.C55_loot"
   ],
   "note": "What the guessing methods find: basenames, extensions, prefixes, game files"
  },
  {
   "property": "C56",
   "status": "proved",
   "theorems": [
    "Cdtb.C56_numbers",
    "Cdtb.C56_digits",
    "Cdtb.C56_words",
    "Cdtb.C56_add",
    "Cdtb.C56_percent"
   ],
   "note": "What word and number substitution find"
  },
  {
   "property": "C57",
   "status": "proved",
   "theorems": [
    "Cdtb.C57_plugin",
    "Cdtb.C57_plugin_error",
    "Cdtb.C57_region_lang",
    "Cdtb.C57_lang",
    "Cdtb.C57_suffixes",
    "Cdtb.C57_character",
    "Cdtb.C57_skins",
    "Cdtb.C57_skins_once",
    "Cdtb.C57_skin_groups",
    "Cdtb.C57_lcu"
   ],
   "note": "What the substitution of plugins, regions, languages, suffixes, characters and skins finds"
  },
  {
   "property": "C58",
   "status": "proved",
   "theorems": [
    "Cdtb.C58_bin",
    "Cdtb.C58_bin_stored",
    "Cdtb.C58_file",
    "Cdtb.C58_wad",
    "Cdtb.C58_not_ascii"
   ],
   "note": "Paths found in the content of game files"
  },
  {
   "property": "C59",
   "status": "proved",
   "theorems": [
    "Cdtb.C59_frame",
    "Cdtb.C59_clean",
    "Cdtb.C59_complete",
    "Cdtb.C59_overwrite",
    "Cdtb.C59_succeeds",
    "Cdtb.C59_recovers",
    "Cdtb.C59_keeps",
    "Cdtb.C59_abort",
    "Cdtb.C59_stale_tex",
    "Cdtb.C59_full",
    "Cdtb.C59_outside",
    "Cdtb.C59_collision",
    "Cdtb.C59_strings",
    "Cdtb.C59_strings_met",
    "Cdtb.C59_refused_plain",
    "Cdtb.C59_refused_wad",
    "Cdtb.C59_refused_met"
   ],
   "note": "What an export leaves on disk, and resuming it"
  },
  {
   "property": "C60",
   "status": "proved",
   "theorems": [
    "Cdtb.C60_yaml",
    "Cdtb.C60_yaml_total",
    "Cdtb.C60_metadata",
    "Cdtb.C60_history",
    "Cdtb.C60_agree",
    "Cdtb.C60_pbe",
    "Cdtb.C60_cached",
    "Cdtb.C60_failure",
    "Cdtb.C60_none",
    "Cdtb.C60_interrupted",
    "Cdtb.C60_releaseElems",
    "Cdtb.C60_elements",
    "Cdtb.C60_lists",
    "Cdtb.C60_succeeds"
   ],
   "note": "The patch version of an element of a release"
  },
  {
   "property": "C61",
   "status": "proved",
   "theorems": [
    "Cdtb.C61_history",
    "Cdtb.C61_frame",
    "Cdtb.C61_succeeds",
    "Cdtb.C61_new",
    "Cdtb.C61_retry",
    "Cdtb.C61_blocked",
    "Cdtb.C61_reads",
    "Cdtb.C61_reports"
   ],
   "note": "A patch exported on top of the previous one reads as a full export"
  },
  {
   "property": "C62",
   "status": "proved",
   "theorems": [
    "Cdtb.C62_hashfile",
    "Cdtb.C62_open",
    "Cdtb.C62_open_toc_error",
    "Cdtb.C62_content",
    "Cdtb.C62_extract",
    "Cdtb.C62_frame",
    "Cdtb.C62_lazy",
    "Cdtb.C62_usage",
    "Cdtb.C62_only_pattern",
    "Cdtb.C62_list",
    "Cdtb.C62_lazy_extract"
   ],
   "note": "WAD commands extract and list exactly what the archive holds"
  },
  {
   "property": "C63",
   "status": "proved",
   "theorems": [
    "Cdtb.C63_history",
    "Cdtb.C63_version",
    "Cdtb.C63_unique",
    "Cdtb.C63_agree",
    "Cdtb.C63_cached",
    "Cdtb.C63_none",
    "Cdtb.C63_pbe",
    "Cdtb.C63_unknown",
    "Cdtb.C63_download",
    "Cdtb.C63_filepaths",
    "Cdtb.C63_offline",
    "Cdtb.C63_cwd",
    "Cdtb.C63_interrupted",
    "Cdtb.C63_succeeds",
    "Cdtb.C63_version_succeeds",
    "Cdtb.C63_succeeds_case",
    "Cdtb.C63_version_succeeds_case"
   ],
   "note": "RADS storages: files on disk and patch versions, along any history"
  },
  {
   "property": "C64",
   "status": "proved",
   "theorems": [
    "Cdtb.C64_storage",
    "Cdtb.C64_elements",
    "Cdtb.C64_prefix",
    "Cdtb.C64_sorted",
    "Cdtb.C64_failure",
    "Cdtb.C64_agree",
    "Cdtb.C64_pbe",
    "Cdtb.C64_succeeds",
    "Cdtb.C64_succeeds_case"
   ],
   "note": "Patch elements of a RADS storage"
  },
  {
   "property": "C65",
   "status": "proved",
   "theorems": [
    "Cdtb.C65_converter",
    "Cdtb.C65_one",
    "Cdtb.C65_names",
    "Cdtb.C65_kept",
    "Cdtb.C65_contents",
    "Cdtb.C65_lists"
   ],
   "note": "Content of a patch export"
  },
  {
   "property": "C66",
   "status": "proved",
   "theorems": [
    "Cdtb.C66_collect",
    "Cdtb.C66_export",
    "Cdtb.C66_data",
    "Cdtb.C66_lists",
    "Cdtb.C66_missing",
    "Cdtb.C66_broken",
    "Cdtb.C66_patch",
    "Cdtb.C66_patch_stops"
   ],
   "note": "Collecting the files of a patch from disk"
  },
  {
   "property": "C67",
   "status": "proved",
   "theorems": [
    "Cdtb.C67_dir",
    "Cdtb.C67_current",
    "Cdtb.C67_download",
    "Cdtb.C67_no_date",
    "Cdtb.C67_frame",
    "Cdtb.C67_fresh",
    "Cdtb.C67_crash",
    "Cdtb.C67_fetch",
    "Cdtb.C67_all",
    "Cdtb.C67_race",
    "Cdtb.C67_succeeds"
   ],
   "note": "Directory of hash files and its updates"
  },
  {
   "property": "C68",
   "status": "proved",
   "theorems": [
    "Cdtb.C68_parse",
    "Cdtb.C68_unambiguous",
    "Cdtb.C68_errors",
    "Cdtb.C68_roundtrip",
    "Cdtb.C68_str",
    "Cdtb.C68_eq",
    "Cdtb.C68_lt",
    "Cdtb.C68_order",
    "Cdtb.C68_patches",
    "Cdtb.C68_patch_str",
    "Cdtb.C68_list",
    "Cdtb.C68_download"
   ],
   "note": "RADS components: identity, order, component strings, listings"
  },
  {
   "property": "C69",
   "status": "proved",
   "theorems": [
    "Cdtb.C69_lcu_words",
    "Cdtb.C69_lcu_add",
    "Cdtb.C69_lcu_numbers",
    "Cdtb.C69_game_words",
    "Cdtb.C69_patterns",
    "Cdtb.C69_get_characters",
    "Cdtb.C69_character_files",
    "Cdtb.C69_shaders",
    "Cdtb.C69_chromas",
    "Cdtb.C69_chromas_error",
    "Cdtb.C69_unknown_files",
    "Cdtb.C69_unknown_roundtrip",
    "Cdtb.C69_xdbg",
    "Cdtb.C69_chromas_document",
    "Cdtb.C69_chromas_refused",
    "Cdtb.C69_chromas_case"
   ],
   "note": "What the remaining guessing methods find"
  },
  {
   "property": "C70",
   "status": "proved",
   "theorems": [
    "Cdtb.C70_json",
    "Cdtb.C70_wad",
    "Cdtb.C70_wad_again",
    "Cdtb.C70_unreadable",
    "Cdtb.C70_number"
   ],
   "note": "Paths found in the text files of the client"
  },
  {
   "property": "C71",
   "status": "proved",
   "theorems": [
    "Cdtb.C71_usage",
    "Cdtb.C71_run",
    "Cdtb.C71_files",
    "Cdtb.C71_reload",
    "Cdtb.C71_dry",
    "Cdtb.C71_order",
    "Cdtb.C71_error",
    "Cdtb.C71_lcu_found",
    "Cdtb.C71_game_found",
    "Cdtb.C71_lcu_grep",
    "Cdtb.C71_game_grep"
   ],
   "note": "Command that guesses hashes"
  },
  {
   "property": "C72",
   "status": "proved",
   "theorems": [
    "Cdtb.C72_tables",
    "Cdtb.C72_augments",
    "Cdtb.C72_missing_spell",
    "Cdtb.C72_export",
    "Cdtb.C72_no_table",
    "Cdtb.C72_export_met",
    "Cdtb.C72_augments_met",
    "Cdtb.C72_empty_values",
    "Cdtb.C72_succeeds",
    "Cdtb.C72_succeeds_case",
    "Cdtb.C72_readable"
   ],
   "note": "String tables by language, and data of Arena"
  },
  {
   "property": "C73",
   "status": "proved",
   "theorems": [
    "Cdtb.C73_traits",
    "Cdtb.C73_names",
    "Cdtb.C73_sets",
    "Cdtb.C73_no_sets",
    "Cdtb.C73_champs",
    "Cdtb.C73_no_splash",
    "Cdtb.C73_missing_role",
    "Cdtb.C73_items",
    "Cdtb.C73_traits_met",
    "Cdtb.C73_sets_met",
    "Cdtb.C73_champs_met",
    "Cdtb.C73_items_met",
    "Cdtb.C73_traits_succeed",
    "Cdtb.C73_names_succeed",
    "Cdtb.C73_sets_succeed",
    "Cdtb.C73_champs_succeed",
    "Cdtb.C73_items_succeed",
    "Cdtb.C73_traits_succeed_met",
    "Cdtb.C73_names_succeed_met",
    "Cdtb.C73_sets_succeed_met",
    "Cdtb.C73_champs_succeed_met",
    "Cdtb.C73_items_succeed_met"
   ],
   "note": "TFT data is read from BIN files as specified"
  },
  {
   "property": "C74",
   "status": "proved",
   "theorems": [
    "Cdtb.C74_export",
    "Cdtb.C74_no_table",
    "Cdtb.C74_tft_versions",
    "Cdtb.C74_arena_versions",
    "Cdtb.C74_export_met",
    "Cdtb.C74_old_met",
    "Cdtb.C74_succeeds",
    "Cdtb.C74_succeeds_case"
   ],
   "note": "The export of TFT data writes complete files, for patches that have them"
  },
  {
   "property": "C75",
   "status": "proved",
   "theorems": [
    "Cdtb.C75_items",
    "Cdtb.C75_handler",
    "Cdtb.C75_interrupted",
    "Cdtb.C75_race",
    "Cdtb.C75_interrupt_only",
    "Cdtb.C75_interrupt",
    "Cdtb.C75_lines",
    "Cdtb.C75_next",
    "Cdtb.C75_answer",
    "Cdtb.C75_plain",
    "Cdtb.C75_items_met",
    "Cdtb.C75_interrupted_met",
    "Cdtb.C75_answer_met"
   ],
   "note": "Iteration with progress on interrupts gives all the items and gives the signal handler back"
  },
  {
   "property": "C76",
   "status": "proved",
   "theorems": [
    "Cdtb.C76_download",
    "Cdtb.C76_outcome",
    "Cdtb.C76_refused",
    "Cdtb.C76_lang_option",
    "Cdtb.C76_bundles",
    "Cdtb.C76_release",
    "Cdtb.C76_files",
    "Cdtb.C76_files_relative",
    "Cdtb.C76_files_lang_option",
    "Cdtb.C76_files_exist",
    "Cdtb.C76_retry",
    "Cdtb.C76_succeeds",
    "Cdtb.C76_rads_download",
    "Cdtb.C76_rads_refused",
    "Cdtb.C76_rads_lang_option",
    "Cdtb.C76_rads_files",
    "Cdtb.C76_met",
    "Cdtb.C76_rads_succeeds"
   ],
   "note": "Downloading components, and listing their files"
  },
  {
   "property": "C77",
   "status": "proved",
   "theorems": [
    "Cdtb.C77_typed",
    "Cdtb.C77_literals",
    "Cdtb.C77_printable",
    "Cdtb.C77_layout",
    "Cdtb.C77_headings",
    "Cdtb.C77_faithful",
    "Cdtb.C77_command",
    "Cdtb.C77_printed",
    "Cdtb.C77_refused",
    "Cdtb.C77_compare",
    "Cdtb.C77_version_text",
    "Cdtb.C77_version_default",
    "Cdtb.C77_ambiguous_key",
    "Cdtb.C77_ambiguous_patch",
    "Cdtb.C77_not_shown",
    "Cdtb.C77_floats_met",
    "Cdtb.C77_names_met",
    "Cdtb.C77_met"
   ],
   "note": "The text of BIN files tells what is in them"
  },
  {
   "property": "C78",
   "status": "proved",
   "theorems": [
    "Cdtb.C78_extract",
    "Cdtb.C78_failure",
    "Cdtb.C78_succeeds",
    "Cdtb.C78_no_extension",
    "Cdtb.C78_absolute",
    "Cdtb.C78_odd",
    "Cdtb.C78_faithful",
    "Cdtb.C78_emptied"
   ],
   "note": "Extraction of the submeshes of SKN files"
  },
  {
   "property": "C79",
   "status": "proved",
   "theorems": [
    "Cdtb.C79_unambiguous",
    "Cdtb.C79_denotes",
    "Cdtb.C79_same",
    "Cdtb.C79_ascii",
    "Cdtb.C79_one_line",
    "Cdtb.C79_bin_file",
    "Cdtb.C79_export_bin",
    "Cdtb.C79_export_rst",
    "Cdtb.C79_export_atlas",
    "Cdtb.C79_export_skins",
    "Cdtb.C79_tables_total",
    "Cdtb.C79_bin_dump",
    "Cdtb.C79_std_tuple_key",
    "Cdtb.C79_libraries"
   ],
   "note": "JSON texts of exported and printed data"
  },
  {
   "property": "C80",
   "status": "proved",
   "theorems": [
    "Cdtb.C80_sources",
    "Cdtb.C80_collect",
    "Cdtb.C80_export",
    "Cdtb.C80_output",
    "Cdtb.C80_history",
    "Cdtb.C80_failure",
    "Cdtb.C80_link",
    "Cdtb.C80_succeeds",
    "Cdtb.C80_rads",
    "Cdtb.C80_rads_same",
    "Cdtb.C80_rads_succeeds"
   ],
   "note": "An export depends on the CDN, not on the history of the storage"
  },
  {
   "property": "C81",
   "status": "proved",
   "theorems": [
    "Cdtb.C81_plain",
    "Cdtb.C81_separator",
    "Cdtb.C81_missing",
    "Cdtb.C81_lang",
    "Cdtb.C81_scattered",
    "Cdtb.C81_values",
    "Cdtb.C81_unknown",
    "Cdtb.C81_call",
    "Cdtb.C81_failed",
    "Cdtb.C81_dispatch",
    "Cdtb.C81_no_command",
    "Cdtb.C81_verbose",
    "Cdtb.C81_equals",
    "Cdtb.C81_letter_value",
    "Cdtb.C81_abbreviation",
    "Cdtb.C81_ambiguous",
    "Cdtb.C81_letters",
    "Cdtb.C81_spellings_met",
    "Cdtb.C81_unique"
   ],
   "note": "Command lines are understood as documented"
  },
  {
   "property": "C82",
   "status": "proved",
   "theorems": [
    "Cdtb.C82_source",
    "Cdtb.C82_client",
    "Cdtb.C82_unique",
    "Cdtb.C82_game",
    "Cdtb.C82_file",
    "Cdtb.C82_server",
    "Cdtb.C82_game_server",
    "Cdtb.C82_down",
    "Cdtb.C82_unchanged",
    "Cdtb.C82_update",
    "Cdtb.C82_manifest"
   ],
   "note": "The latest release comes from the configured source"
  },
  {
   "property": "C83",
   "status": "proved",
   "theorems": [
    "Cdtb.C83_sorted",
    "Cdtb.C83_arena_data",
    "Cdtb.C83_tft_data",
    "Cdtb.C83_arena_files",
    "Cdtb.C83_tft_files",
    "Cdtb.C83_writes",
    "Cdtb.C83_mixed",
    "Cdtb.C83_arena_script",
    "Cdtb.C83_tft_script",
    "Cdtb.C83_no_input",
    "Cdtb.C83_arena_met",
    "Cdtb.C83_tft_met"
   ],
   "note": "The JSON files of TFT and Arena hold all the data, with sorted members"
  },
  {
   "property": "C84",
   "status": "proved",
   "theorems": [
    "Cdtb.C84_wad_extract",
    "Cdtb.C84_wad_list",
    "Cdtb.C84_bin_dump",
    "Cdtb.C84_skn_extract",
    "Cdtb.C84_fetch_hashes",
    "Cdtb.C84_download",
    "Cdtb.C84_files",
    "Cdtb.C84_versions",
    "Cdtb.C84_hashes_guess",
    "Cdtb.C84_export",
    "Cdtb.C84_any",
    "Cdtb.C84_reads",
    "Cdtb.C84_lines_met",
    "Cdtb.C84_downloads",
    "Cdtb.C84_rads_downloads",
    "Cdtb.C84_bin_dumps",
    "Cdtb.C84_bin_json",
    "Cdtb.C84_wad_extracts",
    "Cdtb.C84_wad_lazy",
    "Cdtb.C84_wad_lists",
    "Cdtb.C84_skn_extracts",
    "Cdtb.C84_fetches",
    "Cdtb.C84_files_printed",
    "Cdtb.C84_files_stored",
    "Cdtb.C84_versions_printed",
    "Cdtb.C84_lines_all",
    "Cdtb.C84_lazy",
    "Cdtb.C84_dry_run",
    "Cdtb.C84_skn_no_extension",
    "Cdtb.C84_processed",
    "Cdtb.C84_same",
    "Cdtb.C84_runs_met",
    "Cdtb.C84_versions_listed",
    "Cdtb.C84_versions_met"
   ],
   "note": "A command does what its command line says"
  },
  {
   "property": "C85",
   "status": "proved",
   "theorems": [
    "Cdtb.C85_matches",
    "Cdtb.C85_literal",
    "Cdtb.C85_between",
    "Cdtb.C85_prefix",
    "Cdtb.C85_suffix",
    "Cdtb.C85_contains",
    "Cdtb.C85_many",
    "Cdtb.C85_wrong_range",
    "Cdtb.C85_selected",
    "Cdtb.C85_extract",
    "Cdtb.C85_frame"
   ],
   "note": "Patterns of wad-extract match what they say"
  },
  {
   "property": "C86",
   "status": "proved",
   "theorems": [
    "Cdtb.C86_decode",
    "Cdtb.C86_valid",
    "Cdtb.C86_strict",
    "Cdtb.C86_stray_byte",
    "Cdtb.C86_between",
    "Cdtb.C86_length",
    "Cdtb.C86_base64",
    "Cdtb.C86_injective",
    "Cdtb.C86_shape",
    "Cdtb.C86_table"
   ],
   "note": "String tables with encoding errors and encrypted texts are readable"
  },
  {
   "property": "C87",
   "status": "proved",
   "theorems": [
    "Cdtb.C87_loads",
    "Cdtb.C87_determined",
    "Cdtb.C87_refused",
    "Cdtb.C87_dicts",
    "Cdtb.C87_whitespace",
    "Cdtb.C87_cut",
    "Cdtb.C87_dumps",
    "Cdtb.C87_bin_file",
    "Cdtb.C87_export_rst",
    "Cdtb.C87_release",
    "Cdtb.C87_release_cut",
    "Cdtb.C87_crash",
    "Cdtb.C87_history",
    "Cdtb.C87_pointer",
    "Cdtb.C87_update",
    "Cdtb.C87_update_refused",
    "Cdtb.C87_case",
    "Cdtb.C87_case_all",
    "Cdtb.C87_case_refused",
    "Cdtb.C87_case_cut",
    "Cdtb.C87_case_release",
    "Cdtb.C87_case_update"
   ],
   "note": "JSON documents are read as what they denote, and cut ones are refused"
  },
  {
   "property": "C88",
   "status": "proved",
   "theorems": [
    "Cdtb.C88_bytes",
    "Cdtb.C88_unambiguous",
    "Cdtb.C88_extension",
    "Cdtb.C88_json_entry",
    "Cdtb.C88_conf",
    "Cdtb.C88_conf_refused",
    "Cdtb.C88_metadata",
    "Cdtb.C88_metadata_refused",
    "Cdtb.C88_case_bytes",
    "Cdtb.C88_case_extension",
    "Cdtb.C88_case_conf",
    "Cdtb.C88_case_metadata",
    "Cdtb.C88_value",
    "Cdtb.C88_champions",
    "Cdtb.C88_case_champions"
   ],
   "note": "JSON data and files: extensions of archive entries, storage configurations and versions"
  }
 ]
}