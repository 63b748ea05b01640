# Formal model of CommunityDragon/CDTB in Lean 4

## 1. Method

The Python sources in `/repo/cdtb` are read as text and transcribed, function by
function, into total computable Lean functions (`lean/Verif/Model/*.lean`).
Python runtime notions used by several modules (exceptions as values, insertion
ordered dicts, `str`/`bytes` operations, `struct`, `os.path`, `sorted`,
`itertools.groupby`, file objects) live in `lean/Verif/Py/*.lean`.
Independent specifications (encoders of the binary formats, grammars, abstract
maps) live in `lean/Verif/Spec/*.lean` and never mention the model.
Helper lemmas are in `lean/Verif/Lemmas/*.lean` and property theorems in
`lean/Verif/Props/C*.lean`, one file per property, each with an `example`
showing that a non trivial case meets the hypotheses.

Conventions
* `Res α = Except Err α`: a Python exception is a value of `Err`.
* `Str = List Char`, `Bytes = List UInt8`; Python ints are `Nat`/`Int` (unbounded, as in Python).
* dicts are association lists in insertion order (`Dict`); `d[k]=v` keeps the
  position of an existing key, as in CPython >= 3.7.
* binary files are `(data, pos)` readers; `read` is short at EOF, as in Python; `struct.unpack` raises on a length mismatch.
* external libraries (zstd, gzip, zlib, xxhash, SHA-1, base64, JSON, UTF-8 decoding of
  arbitrary bytes, requests, Pillow) are parameters of the model; whatever a theorem assumes of them is an explicit hypothesis.
* `str.lower()` is modelled on ASCII (other characters unchanged).
* floats are carried as their raw 32-bit pattern (no arithmetic is done on them).

Where the natural property is false of the code, the theorem states the exact boundary and a separate
refutation theorem exhibits the violating case (listed in section 4).

## 2. Trusted base

* Lean 4.33.0 kernel. Axioms: at most `propext`, `Classical.choice`, `Quot.sound`.
* No `sorry`, no own axioms, no `native_decide`/`bv_decide`.
* The reading of the Python code and of the CPython/`struct`/`os.path` semantics. The code is not run.
* Abstract parameters as listed above.

## 3. Properties: what is modelled and how it is proved

| id | modelled | proof |
|----|----------|-------|
| C01 | BaseVersion as (text, int list); Python tuple comparison | order laws on lexicographic comparison of lists; canonical printing injective |
| C02 | int()/str.split/join, PatchVersion | decimal print/parse round-trip by induction |
| C03 | reader state (remaining chunks, buffer, pos) | refinement to the flat byte stream, induction on chunks |
| C04 | filesystem map and fault points | case analysis/induction over writes |
| C05 | download over the C04 filesystem | invariant by induction over histories |
| C06 | worker threads as step machines over the shared filesystem | invariant by induction over schedules |
| C07,C08 | groupby, dict of first elements, next/for lookups | induction on element sequence |
| C09 | the regular expression as an executable matcher | equivalence with a grammar |
| C10 | parse_headers over byte readers | reader/encoder round-trip, induction on entries |
| C11 | read_data with abstract codecs | induction on subchunks |
| C12,C13 | set_unknown_paths, sanitize_paths, splitext, split, join | hex injectivity, list lemmas |
| C14 | Wad.extract over filesystem map | induction over entries |
| C15 | magic table and guess_extension | finite table facts lifted over all tails |
| C16 | guess_extensions with global cache | simulation with the cacheless function |
| C17,C18 | parse_rst, lookups | round-trip with bit splitting |
| C19 | SknFile parsing and to_obj (float printing abstract) | round-trip, arithmetic |
| C20 | compute_binhash | equality with a BitVec 32 FNV-1a specification |
| C21 | parse_bintype | case analysis for all versions |
| C22 | BinReader, BinFile (fuel = remaining bytes) | round-trip by structural induction on value trees |
| C23,C24,C25 | object access, to_serializable, __eq__ | induction on fields |
| C26 | paths_to_tree, reduce_common_trees | induction on trees |
| C27,C28,C29,C30 | Exporter bookkeeping, output tree, process() at path level, from_directory | set reasoning, tree induction |
| C31,C32 | tex_to_dds, atlas/championskins parsers | byte level equalities, round-trips |
| C33,C34,C35 | bundles, chunks, extraction store | invariants over histories |
| C36,C37 | manifest directory resolution, field tables | induction on depth, layout lemmas |
| C38 | fetch_latest_update with crash points | invariants over histories (the pointer can be read and designates a release; nothing is in the way of files of releases), from which success follows |
| C39 | langs_predicate | case analysis |
| C40,C41,C42,C43 | RADS merge, extract, manifest parsers | induction, refinement via C03 |
| C44..C48 | HashFile, HashGuesser, directory_list, build_wordlist | round-trip, invariants |
| C49 | convert_cdragon_path | string lemmas |
| C50 | download_manifest | hex round-trip |
| C51 | load_translations (text branch) | line decoding round-trip |
| C52,C53 | command_export, storage configuration | case analysis over all arguments |
| C54 | build_output_sets, export translation pass, parse_items | list induction |
| C55 | HashGuesser.check_basenames, substitute_basenames, substitute_extensions, check_basename_prefixes; guess_from_game_hashes, guess_patterns | candidates characterized on the set of known paths (C45, C46 for the guesser state) |
| C56 | _substitute_basename_words, _add_basename_word, _substitute_numbers, `%` formats, regular expressions with look-ahead | equivalence of a regular expression matcher with a declarative scan, induction on the text |
| C57 | substitute_plugin, substitute_region_lang, substitute_lang, substitute_suffixes, substitute_character, substitute_skin_numbers, guess_skin_groups_bin, guess_from_lcu_hashes | the same, and `itertools.combinations`/`permutations` as sublists and arrangements |
| C58 | GameHashGuesser.grep_wad, grep_file | the same on file contents |
| C59 | Exporter.export, all converters, write_dir_or_remove, over the C04 filesystem with faults | frame, invariant and completeness lemmas for steps of conversions, then for actions, then for histories of exports |
| C60 | PatcherReleaseElement.manif, patch_version, _retrieve_patch_version, PatcherStorage.patch_elements, get_system_yaml_version, get_content_metadata_version, on top of C34 (store) and C38 (releases) | regular expressions against a declarative spec of lines; invariant of the storage (bundles, manifests, files, caches) kept by each operation; success when nothing is in the way of the files a request writes; one request leaves the way clear for the other elements, so that listings succeed (Props/C60List.lean) |
| C61 | CdragonRawPatchExporter.process and _create_symlinks on a whole disk with symlinks (realpath, relpath, makedirs, symlink), on top of C28 (cleaning) and C29 (plan) | invariant of histories: symlinks of a patch lead to files of older ones, without going through other symlinks; preserved by each write, symlink and stop; reading through symlinks is characterised by an inductive relation (`Leads`, `C61_reads`) |
| C62 | `Wad.__init__`, default_hashfile, command_wad_extract and command_wad_list as a whole, on top of C10 (headers), C11 (contents), C12–C13 (names), C14 (extraction), C16 (extensions), C22 (hash files) | independent specification of what an archive contains and where files go; the model meets it by induction on the files, and the frame holds for all faults |
| C63 | solution versions and project versions of RADS storages on a disk: manifests, downloads, lists of files, patch versions and their cache, on top of C05 (downloads), C41 (packages), C42–C43 (manifests), C60 (`system.yaml`, versions) | independent specification of a server and of the files a storage may hold; invariant kept by every operation, successful or not; a patch version is unique; a second invariant (nothing is in the way on the disk) gives the success of downloads after any attempts |
| C64 | `RadsStorage.patch_elements` end to end, with the world of each call of `patch_version` (Model/RadsStorage.lean), on top of C63 | invariants of the two peekers (`SolElems` for what each has consumed) by induction on the merge loop, then refinement to `mergeNewest`; measure for the bound on iterations; success when nothing fails after any history (Props/C64Runs.lean), from C63_version_succeeds with the invariant kept by every call |
| C65 | `_transform_exported_files`, the converters of `_create_exporter`, the lists written by `process` (Model/Export.lean), on top of C29 | patterns as decompositions of paths (Spec/ExportSelect.lean); conversions exclude one another by the ends of paths, except atlases and bin files; characterization of each entry, then of the sets of paths |
| C66 | `add_path`, `add_patch_files` on the files on disk (Model/Collect.lean): archives are opened with the hash file of the disk, redirections dropped, extensions guessed with the cache of the process, paths sanitized. The specification (Spec/Collect.lean) goes from the records of archives to exported paths, and combines `Spec.Opens`, `Spec.Contains` (C62) with the naming and selection of C65. | refinement: each collected entry is the one of a record (C16 for the cache); last source wins by induction on the list; C65 for exported paths |
| C67 | `_default_hash_dir`, `update_default_hashfile`, `command_fetch_hashes`, `get_hashfile` (Model/HashDir.lean): the environment, a disk with modification times, the answers of the server (date header, content), write faults. Dates in HTTP format are parsed to seconds as `strptime` and `timestamp` do (canonical form only). The server is a function of time (Spec/HashDir.lean). | case analysis for the directory and one update; invariant over histories: the file on disk is the one of the server at some instant, unchanged there until the end of the second it was written; calendar by induction on years; frame lemmas for the loop; success of the command by induction on its files (`C67_succeeds`) |
| C68 | `parse_rads_component`, `__eq__`/`__hash__`/`__lt__`/`__str__` of RADS objects and patches, `list_projects`/`list_solutions`, `RadsSolution.download` (Model/RadsComponent.lean). The regular expression is a function on strings, for any set of word characters without `:`, `=` and newline; a relational grammar is its specification (Spec/RadsComponent.lean). | equivalence of the matcher with the grammar; head of a stable insertion sort; order lemmas; induction over the versions with the invariant of C63 |
| C69 | The methods of the guessers not covered by C46, C55-C57: word lists, filters, `guess_patterns`, `get_characters`, `guess_characters_files`, `guess_shader_variants`, chromas, `unknown_from_export`, `check_xdbg_hashes` (Model/GuessMore.lean). Files are arguments; the downloaded `skins.json` is read from the response of the server (Model/Chromas.lean). | candidates described independently (Spec/GuessMore.lean), regular expressions characterized by decompositions of the path (the greedy one by the longest prefix); C56 for substitutions |
| C70 | `wad_text_files` and `LcuHashGuesser.grep_wad` on the entries of a WAD read by `readData` (Model/GrepLcu.lean), with all its regular expressions. `json.loads`, `str` of lists and dicts, and `\w` outside ASCII are arguments. | matches described independently as what is read from left to right without overlapping (`Spec.Finds`), longest or shortest as needed; each pattern proved equivalent to its description; candidates of each kind of JSON value; induction on the files (Spec/GrepLcu.lean) |
| C71 | `command_hashes_guess` on a file system (Model/GuessCmd.lean): arguments, opening of the WADs, both phases with all their methods (C46, C55-C57, C69, C70), the shared cache of guessed extensions, printed lines, `HashFile.load`/`save` with writes that stop anywhere. `parse_storage_component` is an argument (C68 models it). | invariant of guessers kept by every method (`Checks`: only hashes of the WADs, not known, are added, and printed once); independent description of the run (`Spec.RunOf`, Spec/GuessCmd.lean); monotonicity of known paths through methods for what is found |
| C72 | `stringtable_paths` (Model/PyData.lean, with a directory listing as argument), `ArenaTransformer` (Model/Arena.lean) on parsed BIN files (C22), RST files (C17, C18) and the file system. `json_dump`, `repr` of floats and containers are arguments. | formats as lists of entries whose membership is `TableFile`; dict of values by induction on items (`pySet` keeps one entry per name); languages by induction with a frame for the input tables. Success when nothing fails: `C72_readable`, `C72_succeeds` (Props/C72Runs.lean). |
| C73 | `collect_effects`, `parse_traits`, `parse_character_names`, `parse_sets`, `parse_champs`, `parse_items` of `TftTransformer` (Model/TftBin.lean) on parsed BIN files (C22), with the file system for files of champions. The iteration order of sets of hashes is a permutation given as argument; `str` of floats and containers and `//` on floats are arguments. | every function by inversion of its successful runs; loops by induction; dicts by `LastPairs` (last value of each key); optional fields by `Gives`/`Lacks`. Success from the needed fields: `C73_*_succeed` (Props/C73total.lean). |
| C74 | `build_template`, `export` of `TftTransformer` on a file system with failures, glued to C73 (parsing) and C54 (template, translation), `export_tft_data` and `export_arena_data` (Model/TftExport.lean). Traits and champions are objects: positions in their dicts. Names that are neither texts nor `None`, numbers of sets that are not integers are not modelled (error). | the parsing is described by C73, the template by `Spec.TemplateFrom`, the translation by `Spec.TftTranslated`; the loop on languages by induction with a frame, as in C72; versions by cases. Success when the data is read: `C74_succeeds` (Props/C74Runs.lean). |
| C75 | `sigint_callback`, `progress_iterate`, `progress_iterator` as a machine with one point per statement; schedules are lists of steps, requests of the consumer, drops and signals with their times (Model/Progress.lean). The text of the lines and signals handled by the previous handler are not modelled. | an invariant on all schedules (items given, pending item and rest make the sequence; handler by point; lines), counting of lines by signals, and direct runs for the next item and the answer. |
| C76 | `command_download`, `command_files`, `Patch.download`, `PatcherPatchElement`, `PatcherRelease.download_bundles/extract`, `RadsPatchElement` on top of the models of storages (Model/Commands.lean); `args.langs` as argparse gives it. The download of manifests of patcher releases is not modelled (elements come with their manifest). | an invariant of loops on elements (order of the disk, files already right, elements done), C34/C35 for patcher elements with the thread pool, C63 for RADS. Success: a second invariant (nothing in the way of outputs, store and bundles) is kept by any attempt, failed or not; with it, when nothing fails, every task of the pool ends well and C35 applies; for RADS storages it follows from the success of C63 (C80radsRuns). |
| C77 | `BinFile.dump`, `format_binvalue`, all `__repr__` of cdtb/binfile.py, `repr` of texts with its escapes, `command_bin_dump` (Model/BinDump.lean). `repr` of floats and `str.isprintable` are parameters; the theorems assume that different numbers have different texts. | the text is equal to a text indented by level (Spec/BinDump.lean); decoding lemmas by mutual induction on values, with what can follow a value; values read have their types by induction on the reader's fuel. |
| C78 | `command_skn_extract` on top of the model of SKN files (Model/SknCmd.lean): `open(..., 'w')` and the write are modelled with failures; texts of floats are a parameter. | induction on submeshes with a description of the whole disk (`Spec.Wrote`); line by line decoding of OBJ texts. |
| C79 | The JSON writers (Model/JsonText.lean): escapes, surrogate pairs, separators, indentation and names of keys are modelled; the text of floats and what differs between `ujson` and the standard library are parameters (`OverflowError` of old versions of `ujson` for floats that are not numbers is not modelled). The grammar of RFC 8259 is a relation between texts and values (Spec/JsonText.lean). | induction on the grammar (a text has one value), mutual induction on data, invariants of dicts for distinct names, typed values of BIN files (C77). |
| C80 | The export from a storage (Model/PatchExport.lean): downloads of C76, then the collection of C66 on the resulting disk, with links followed. The specification compares with any disk that has the files of the server (Spec/PatchExport.lean). Manifests of releases are given. | composition of C76, C66, C59 and C63: disks which agree on what is read give the same collection (congruence), invariant of the storage over histories; success from the success of C76. |
| C81 | `create_parser` and `main` (Model/Args.lean): the table of parsers, and the parts of `argparse` (CPython 3.11) they use: classification of words, abbreviations, joined letters, `=`, `--`, `nargs`, choices, defaults, subcommands. The model of `argparse` is part of the trusted base; it was compared with the real module (not with the toolbox) on 30000 random command lines, without difference. Texts of help and error messages are not modelled. | simulation of the loop over tokens on well-formed command lines (induction on given options); invariant of the namespace (`NsOk`: attributes are the declared ones, values are defaults or come from words) for all command lines; spellings (`--name=value`, `-xvalue`, abbreviations, joined letters) give the same result as exact names (C81Spell) |
| C82 | `get_latest_client_manifest`, `get_latest_game_manifest`, `fetch_latest_update` and `PatcherManifest.__init__` (Model/Latest.lean); servers are functions from URLs to responses, `json.loads` is a parameter, documents are UTF-8; URLs that are not texts are not modelled | characterisation of successful navigation in documents (`At`), cases on sources, composition with C38 |
| C83 | conversion of data to JSON (`json_dump` with `sort_keys`) and the `main` of tftdata.py and arenadata.py (Model/GameJson.lean); the JSON library is the writer of C79, command lines are those of C81 | relation between data and JSON values given per attribute (Spec/GameJson.lean), sorting keeps members (induction on values), composition with C72, C74, C79 and C81 |
| C84 | the reading of attributes by the ten commands, and the whole run of the toolbox (Model/Toolbox.lean): command line (C81), storage (C53), then the command: `wad-extract`, `wad-list` (C62), `bin-dump` (C79), `skn-extract` (C78), `hashes-guess` (C71), `versions` and `export` (C76, C52). What storages do for `download`, `files`, the listing of elements and the processing of an exporter are parameters, modelled in C67 and C80; listing elements does not fail here | command lines are given by a small grammar (`LineOf`); attributes come from C81, and each command is compared with its model applied to the given arguments; for arbitrary lines, a relation `Ran` lists all that may happen; the values told by options are unique (`C81_unique`), which composes command lines with C62, C67 and C78 (Props/C84Ends.lean), C77 and C79 (Props/C84Dump.lean), C53 and C76 (Props/C84Download.lean, Props/C84Files.lean) |
| C85 | `fnmatch.fnmatchcase`, a function of the standard library used by `wad-extract`, as in Python 3.11 and 3.12: pieces of the translated pattern (classes cut at hyphens, empty ranges removed), and how the regular expression matches them, without going back (Model/Fnmatch.lean); compared with Python on 4000 random patterns | what a pattern matches is a relation on its characters (`Glob`, `InClass`), independent of the translation; the first place of each text leaves the most for the rest; then C62 with these patterns |
| C86 | `bytes.decode('utf-8', 'replace')` and `b64encode`, functions of the standard library used by `parse_rst` and parameters of the model of C17 (Model/RstText.lean); compared with Python on 1200 cases | the text of bytes is a relation stated with the encodings of characters only (`Decodes`), which has exactly one solution; base 64 is stated on numbers and the letters of RFC 4648; then C17 with these functions |
| C87 | the JSON reader of the standard library (`json.load`, `json.loads`), parameter of the models of C38 and C82, as a scanner on characters (Model/JsonRead.lean); compared with Python on 6000 texts. Not modelled: lone surrogates (refused here, kept by Python), limits on nesting and on digits of integers | soundness and completeness with respect to the grammar of C79, by induction on the fuel and on the derivation; what is kept from objects is a relation (`Kept`) with exactly one solution; cut texts by comparing two runs of the scanner; then C38, C79 and C82 without their hypothesis on JSON |
| C88 | `json.loads` on bytes (`json.detect_encoding` and the decoders of UTF-8, UTF-16 and UTF-32) and the files read with `json.load`: parameters of the models of C15, C53 and C60 (Model/JsonBytes.lean); compared with Python on 8000 byte strings. Not modelled: lone surrogates, configurations whose values are numbers, lists or objects | the encodings are specified as functions from texts to bytes (Spec/JsonBytes.lean); each decoder is shown to be the inverse, and the detection is right because documents have no null character and start with an ASCII one; then C15, C53 and C60 with this parser |

## 4. Disagreements between natural expectations and the code

Each one is stated by a theorem (a boundary or a refutation), or restricts a hypothesis of the theorem named.

* Versions: `==` compares texts but `<` compares numbers (`C01_noncanonical`, `C02_spelling_boundary`); `as_int` is not monotonic from
  `x.100` (`C02_as_int_boundary`); "main" cannot be ordered against a number (`C02_main`).
* `write_file_or_remove` always fails on a bare file name and removes an existing file of that name (`C04_bare_name`).
* A file truncated by a crash is taken for a complete one by all later downloads (`C05_crash_boundary`), lazy exports and extractions
  (`C34_trusted_store`, `C34_no_overwrite`).
* A version that comes back in an unsorted storage gives two patches (`C07_boundary`); `Storage.patch()` raises `StopIteration` on an empty storage
  (`C08_latest_patch`).
* `sanitize_paths` makes names longer when the extension has more than 233 characters (`C13_boundary`).
* The cache of `guess_extensions` is keyed by path hash: the first archive seen decides for all others (`C16_first_wins`). The signature `r3d2` hides
  longer ones (`C15_longest`).
* RST: the last text loses a byte when it is not terminated (`C17_unterminated`). SKN: an index before the range becomes 0 (`C19_boundary`).
* BIN: a text that is not ASCII raises even for `in` and `get` (`C23_non_ascii`); serialized maps lose pairs whose keys are displayed the same
  (`C24_map_collision`) and fail on container keys (`C24_container_key`); resolving a hash may turn an equality false (`C25_boundary`); float keys (`C22_float_keys`).
* Export: entries without checksum are dropped (`C27_no_checksum`); the output directory itself is removed when emptied (`C28_boundary`); exporting 14.4
  over 14.3 with symlinks fails (`C29_language_boundary`); a directory named by one number stops the export of a storage (`C30_bad_directory`), and so
  does a "main" patch (`C30_main`). One malformed string table, mesh, atlas or skin list stops the whole export (`C59_abort`); an image that
  cannot be written is skipped silently (`C59_full`); a TEX file that cannot be converted keeps the old image (`C59_stale_tex`); a submesh with an
  absolute name is written outside of the output (`C59_outside`); exporting `x.skn` removes the exported directory `x` (`C59_collision`).
* TEX: short files give the header as pixels (`C31_boundary`). Atlas: truncated texts are shortened silently (`C32_truncated`).
* Patcher: directory cycles make parsing loop forever (`C36_cycle`); a crash while the latest pointer is written blocks all later fetches
  (`C38_crash_pointer`); two releases in the same second share a directory (`C38_same_second`); an interrupted write of the
  cache of a patch version makes it wrong or absent for ever (`C60_interrupted`); a version that cannot be found raises instead of giving `None` (`C60_none`),
  which hides all older patch elements (`C60_elements`).
* C61: `files.links.txt` is not written when there is no symlink, and the directory of generated files is never cleaned: the list of a previous export may stay
  (`C61_reports`).
* C61: an empty directory left at the place of a symlink makes all later exports of the patch fail (last example of `Verif.Props.C61`, `C61_blocked`). It is
  left there when an export stops while `clean_output_dir` removes files: files are removed before directories, and later runs do not remove
  directories that are already empty. `Fits.noempty` excludes it.
* C61: `write_dir_or_remove` does not empty the directory: files of a previous conversion of an SKN (one per submesh) stay there (`Usable.stale`).
* C61: contents whose conversion depends on the game version (RST, BIN) are not converted again when the source did not change: symlinks lead to the
  old conversion (`Follows.content`).
* C61: when WADs have different files at the same path, a full export keeps the last one, an export on top of another patch keeps the last one that
  changed (`Sound.one`).
* C61: exporting an old patch again may break symlinks of newer ones: `History` only allows it for the last one.
* RADS: comparing a "main" element raises (`C40_main`); an empty entry at the start of another one makes the extraction fail (`C41_empty_entry`).
* Hash files: an interrupted save leaves a file that loads with a cut path (`C44_interrupted_cut`); the directory list is not updated (`C47_cached`).
* Guessing: `guess_patterns` raises `RuntimeError` when it finds a loot icon (`C55_loot`); files of the root directory are never guessed (`C55_root`); a `%` in a
  path breaks number substitution (`C56_percent`); a file directly in `plugins/` breaks `substitute_plugin` (`C57_plugin_error`); paths with the same skin
  twice are never guessed (`C57_skins_once`); a name that is not ASCII stops the search (`C58_not_ascii`).
* TFT data: the first line and the last character of text tables may be lost (`C51_first_line`, `C51_no_line_break`, `C51_crlf`); texts of traits are
  translated several times (`C54_traits`).
* Command line: `export` without a patch always fails (`C52_no_patch`); the oldest patch raises `StopIteration` (`C52_guess_failures`); `--patchline` is
  ignored with the default storage (`C53_default`).
* WAD commands: an archive whose `.subchunktoc` file cannot be read cannot be opened at all (`C62_open_toc_error`); `wad-extract` of a WAD without extension
  and without `--output` is a usage error, since the output would be the WAD itself (`C62_usage`); `--unknown only` with a pattern extracts nothing
  (`C62_only_pattern`); a known but empty path is listed as `?` and extracted as unknown, but is not selected by `--unknown only` (`C62_list`, `Spec.WadName`).
* RADS storages: the test for a version file already extracted is made in the current directory (`C63_cwd`); the absence of a version is never cached, so it is
  looked for again at each call (`C63_none`); an interrupted write of the cache makes later versions wrong (`C63_interrupted`); a solution manifest which is gone is an
  error, while a package manifest which is gone means no version (`Spec.RadsSite.Patch`).
* Exports: a bin file of a game WAD is left out as soon as `_skins_` is anywhere in its path, not only in the ones of `data/` (`Spec.SkinsBin`); a `.skn` file whose
  name is only dots before its extension is left out (`C65_kept`); a path with a newline escapes the conversion of bin files (`Spec.FileUnder`).
- C66: one file without extension that cannot be decompressed makes the export of the whole patch fail (`guess_extensions` lets the error through), although nothing else needs its content at this point; `C66_broken`.
- C67: a failing write of an update removes the previous hash file, not only the partial one (`C67_download`). A change of the server during a download, or in the second
  when it ends, is never fetched, as the time of the local file is the one of its writing (`C67_race`). A crash while writing leaves a truncated file that all following updates
  consider as current (`C67_crash`). The documentation of `_default_hash_dir` tells that the data directories must exist and that their hashes are in `<dir>/hashes/lol`: the code checks
  neither and uses `cdragon/data/hashes/lol`.
- C68: `str()` of RADS objects (`rads:name=version`) is never accepted by `parse_rads_component` (`C68_str`), unlike the one of patches (`C68_patch_str`). `name=main` and `name=1.2` are
  in the grammar but fail for solutions and projects, the second one with `AssertionError` (`C68_errors`). Versions which differ by leading zeros are neither equal nor ordered. Patches with
  the same version are equal even with different elements (`C68_patches`).
- C69: `guess_patterns` ends with `RuntimeError` whenever it finds a loot splash (`C69_patterns`). One skin with another `loadScreenPath` makes
  `guess_skin_groups_bin_using_chromas` check nothing (`C69_chromas_error`). The parts `vo/` and `sfx/` are not only directories: words are not added in `bravo/` either. A blank line in a
  list of unknown hashes is an error (`C69_unknown_files`).
- C70: a redirection, a file of unknown type or a JSON file with a number makes the search of the WAD fail, and all the relative paths found before are lost (`C70_unreadable`, `C70_number`).
  The directories are computed once: after the first WAD, new directories are not used for relative paths (`C70_wad_again`).
- C71: a component that is not a patch makes the command fail with `AttributeError`, as `[component.elements]` is used for every component (`openArg`). An exception of a method loses
  everything found in its phase, also with other methods (`C71_error`). The saving is not atomic: a failed write leaves a truncated hash file (`C71_files`). An invalid version or name in an argument is a
  `ValueError` too, so the argument is opened as a path. A path with a line break would break the saved file (hypothesis of `C71_reload`). Guessed extensions are shared between WADs by hash.
- C72: a null link as root spell is true in Python (objects of hashes have no `__bool__`), so an enabled augment with a null `RootSpell` makes the whole export fail with `KeyError` (`C72_missing_spell`). An empty `mValues` is an
  `IndexError` even when the new field `values` exists, since the default is computed first (`C72_empty_values`). A missing icon gives the path `none` (`C72_augments_met`). An interrupted write leaves a truncated
  JSON file for this language (`C72_export`: nothing is said about the failing language). The directory is used as a `glob` pattern, so special characters in it do not work (hypothesis in the model).
- C73: a champion without `PcSplashPath` has the icon `None` (a text): `mIconPath` is only used when the path is the empty text, as `str(None)` is true (`C73_no_splash`); the same for `AbilityIconPath`. A role that is not in the map makes
  the whole export fail with `KeyError` (`C73_missing_role`). The branch for old files without `TFTSetData` gives 4 values where 7 are unpacked: such files always fail (`C73_no_sets`). The order of the traits of a set depends on the
  iteration order of a Python set (`C73_sets` holds for every order).
- C74: Arena data of a patch is always read with the default game version 15.2 (`C74_arena_versions`), whatever the patch: string tables of patches from 13.14 to 15.1 have hashes of 39 bits (and another hash function before 14.15), so their
  identifiers are not found, or the file is not read. TFT data uses the version of the patch (`C74_tft_versions`). A trait or a champion listed several times is translated several times (see C54).
- C75: two signals in less than half a second, with the handler installed but the `try` block not yet entered (or in the `finally` block), end the iteration without restoring the previous handler (`C75_race`). The handler stays replaced while the consumer works
  between items, and a signal during the last item is never answered (`C75_answer`).
- C76: `--lang` gives a list to methods that expect one language: on a patcher storage `download` and `files` always fail with `AttributeError` (`C76_lang_option`, `C76_files_lang_option`), on a RADS storage `download` fails with `KeyError`, or downloads no
  project when the list is empty (`C76_rads_lang_option`). `files` lists links, which are never written (`C76_files_exist`).
- C77: keys of maps and paths of patches are printed without quotes: different files can have the same text (`C77_ambiguous_key`, `C77_ambiguous_patch`). The version of the file and an empty patch section are not shown (`C77_not_shown`).
- C78: names of submeshes are used as they are: an absolute name is written outside of the output directory (`C78_absolute`). The text is computed when the file is already open: an odd number of indices leaves an empty file instead of the previous one (`C78_emptied`).
  A SKN file without extension cannot be extracted without `--output` (`C78_no_extension`). The last of several submeshes with the same name wins (`C78_extract`).
- C79: with the standard library, a BIN file that has a map with vectors, colors or matrices as keys cannot be converted: `TypeError` is not turned into a conversion error, so the export stops (`C79_std_tuple_key`); `ujson` uses `str` of the tuple.
- C80: links of manifests are listed with the files of an element but not extracted: an archive which is a link makes the export fail although its download succeeds (`C80_link`). In RADS storages, when two projects have files with the same export path, the one which is exported depends on the order of a set (`C80_rads_same` excludes this case).
- C81: `download --lang fr_fr patch=9.1` is refused: `--lang` takes the components too (`C81_lang`); components first, or `--`, are accepted. Positional arguments in two places are refused even where many are accepted (`C81_scattered`).
  `--patchline` without `--storage` is ignored, and the storage is opened, so may fail, even for `hashes-guess --list-methods` (examples of Props/C81.lean). The only exceptions before a command are those of the selection of the storage (`C81_failed`).
- C82: `PatcherManifest` given a file object always fails with `UnboundLocalError`, a `NameError` (`C82_manifest`). A setting that names a missing file is used as a URL.
- C83: a dictionary with a text and a number as keys makes the export fail with `TypeError` after the file has been created (`C83_mixed`).
- C85: `[z-a!]`, a range in the wrong order followed by `!`, matches any character instead of `!` only (`C85_wrong_range`); it is a flaw of `fnmatch.translate`.
- C88: a JSON entry of an archive whose bytes 6 to 9 are `JFIF` or `Exif`, such as `{"a":"JFIF"}`, gets the extension `jpg` (`C88_case_extension`). Not modelled: for an entry with deeply nested lists, or a number of more than 4300 digits, `json.loads` raises exceptions (`RecursionError`, `ValueError`) that `guess_extension` does not catch, so the extraction stops.

## 5. What is modelled

Functions cited by definitions of the model are listed as modelled; the comments of these definitions give the lines and the simplifications.

<!-- begin coverage -->
| file | functions modelled | not modelled (or only through what they return) |
|---|---|---|
| __main__.py | 15 of 15 |  |
| arenadata.py | 5 of 5 |  |
| binfile.py | 87 of 88 | `BinReader.read_fmt` (394-396) |
| export.py | 61 of 63 | `FileConverter.is_handled` (554-556), `FileConverter.converted_paths` (558-563) |
| hashes.py | 58 of 58 |  |
| patcher.py | 50 of 54 | `PatcherRelease.__str__` (483-484), `PatcherRelease.__repr__` (486-487), `PatcherReleaseElement.__str__` (540-541), `PatcherReleaseElement.__repr__` (543-544) |
| rads.py | 48 of 53 | `RadsSolution.__repr__` (162-163), `RadsSolutionVersion.__repr__` (220-221), `RadsProject.__repr__` (411-412), `RadsProjectVersion.__repr__` (454-455), `BinPackageFile.__str__` (587-588) |
| rstfile.py | 7 of 7 |  |
| sknfile.py | 4 of 4 |  |
| storage.py | 47 of 54 | `BaseVersion.__str__` (38-39), `StorageRegister.__new__` (176-180), `Storage.from_conf_data` (222-223), `Storage.request_text` (229-234), `Storage.stream` (258-262), `Storage.patch_elements` (264-279), `Patch.__init__` (382-383) |
| tftdata.py | 12 of 12 |  |
| tools.py | 14 of 14 |  |
| wad.py | 13 of 14 | `MalformedSubchunkError.__init__` (28-29) |
<!-- end coverage -->

Simplifications common to several modules:

* `str.lower`/`upper`, regular expression classes (`\w`, `\d`) and `int()` on ASCII only. Paths have no line breaks where a regular expression uses `.`.
* The recursion limit and the memory limit of Python are not modelled.
* Filesystem: a map from paths (as texts, without aliasing: no `..`, no symlinks unless stated) to files and directories. Every operation of
  `write_file_or_remove` may fail at any point (`WriteFaults`); `shutil.rmtree` does not fail. Symlinks are modelled in C28, C29, C34, C61 and C65 only.
* Source files of an export do not change while they are read, and are read at once.
* Threads (C06, C35): interleavings of the steps (check, make directories, open, write, close, remove) of each task; each step is atomic.
* YAML/configuration parsing, images, float printing, zstd/gzip/zlib, hashes (xxhash, SHA-1, FNV excepted) are parameters, without assumptions
  unless the theorem states them. JSON is a parameter of the older modules (the first parts of C15, C38, C53, C69, C70). C79 and C83 model what writes it.
  C87 and C88 model what reads it, and C69 (`C69_chromas_document`) and C88 use this reader in place of the parameter.
* Python `set`s are lists without repetitions in an unspecified but fixed order. Statements do not depend on the order unless they say so.
* Logging and progress display are not modelled. `argparse` is modelled in C81 only: other properties start from parsed arguments. `fnmatch` is modelled in C85, and is a parameter elsewhere.
* `%` formats: `%s`, `%d`, `%%` and zero-padded widths. Number substitution with zero digits is not modelled.
* In C57 and C58, file contents are texts of characters below 256.

## 6. Axioms

Obtained with `#print axioms` on every theorem (`tools/design.py`).

<!-- begin axioms -->
* **Classical.choice, Quot.sound, propext** (651 theorems): `C01_le_iff`, `C01_lt_trans`, `C01_noncanonical`, `C01_operators`, `C01_trichotomy`, `C02_as_int`, `C02_as_int_boundary`, `C02_main`, `C02_patch_shape`, `C02_patch_short`, `C02_patch_truncates_text`, `C02_patch_truncates_tuple`, `C02_spelling_boundary`, `C04_bare_name`, `C04_no_fault`, `C04_residue`, `C06_contents`, `C06_frame`, `C06_no_blocking`, `C06_schedule_independent`, `C07_boundary`, `C07_decreasing`, `C07_patches`, `C07_unique`, `C08_agree`, `C08_latest`, `C08_latest_patch`, `C08_patch_found`, `C09_match`, `C09_reject`, `C09_request`, `C10_decode`, `C10_reject`, `C10_truncated`, `C11_corrupted`, `C11_gzip`, `C11_no_toc`, `C11_raw`, `C11_read_file_data`, `C11_redirect`, `C11_subchunks`, `C11_toc`, `C11_unsupported`, `C11_zstd`, `C12_distinct`, `C12_name`, `C13_boundary`, `C13_extension`, `C13_limit`, `C13_long`, `C13_only_path`, `C13_short`, `C14_bad_name`, `C14_frame`, `C14_lazy`, `C14_lazy_written`, `C14_no_swallow`, `C14_other_error`, `C14_written`, `C15_jpeg`, `C15_longest`, `C15_other`, `C15_reachable`, `C15_signature`, `C16_first_wins`, `C16_known`, `C16_process`, `C16_sequence`, `C16_wad`, `C17_decode`, `C17_distinct`, `C17_reject`, `C17_unterminated`, `C17_utf8`, `C18_int`, `C19_boundary`, `C19_magic`, `C19_mid`, `C19_obj`, `C19_old`, `C19_v4`, `C20_case`, `C21_code`, `C21_default`, `C21_injective`, `C21_reject`, `C21_types`, `C22_file`, `C22_fuel`, `C22_magic`, `C22_value`, `C22_wrong_length`, `C23_case`, `C23_get`, `C23_getv`, `C23_history`, `C23_set`, `C23_values`, `C24_container_key`, `C24_display_distinct`, `C24_display_length`, `C24_file`, `C24_lossless`, `C24_map_collision`, `C24_null`, `C24_object`, `C24_total`, `C25_unresolved_case`, `C26_missing`, `C26_reduce`, `C27_no_checksum`, `C27_same_wad`, `C28_clean`, `C29_language_boundary`, `C29_missing`, `C29_no_symlinks`, `C29_symlinks`, `C30_bad_directory`, `C30_directory`, `C30_main`, `C31_boundary`, `C31_errors`, `C31_image`, `C31_mipmaps`, `C32_atlas_hashed`, `C32_atlas_index`, `C32_atlas_text`, `C32_skins`, `C32_skins_errors`, `C32_truncated`, `C33_extract`, `C33_load`, `C33_offsets`, `C34_fresh`, `C34_history`, `C34_no_overwrite`, `C34_shared`, `C34_success`, `C34_trusted_store`, `C35_bundles`, `C35_complete`, `C35_names`, `C36_bad_file`, `C36_body`, `C36_bound`, `C36_cycle`, `C36_file`, `C36_missing`, `C37_bad_table`, `C37_fields`, `C37_table`, `C38_crash_pointer`, `C38_elements`, `C38_history`, `C38_new`, `C38_no_urls`, `C38_pointer`, `C38_same`, `C38_same_second`, `C38_succeeds`, `C38_urls`, `C39_cover`, `C39_exclusive`, `C40_merge`, `C40_no_loss`, `C40_versions`, `C41_complete`, `C41_empty_entry`, `C41_failure`, `C41_history`, `C41_independent`, `C41_overlap`, `C41_success`, `C42_decode`, `C42_header`, `C42_projects`, `C42_text`, `C42_undeclared`, `C43_fields`, `C43_line`, `C43_magic`, `C43_manifest`, `C44_interrupted`, `C44_interrupted_cut`, `C44_last_wins`, `C44_load`, `C44_roundtrip`, `C44_stable`, `C44_text`, `C45_is_known`, `C45_safe`, `C45_unknown`, `C46_order`, `C46_resolved`, `C47_ancestors`, `C47_components`, `C47_terminates`, `C48_set`, `C48_sorted`, `C48_words`, `C49_directory`, `C49_idempotent`, `C49_lower`, `C49_other`, `C49_texture`, `C50_ids`, `C50_negative`, `C50_same_path`, `C50_stored`, `C50_url`, `C50_without_secure`, `C51_crlf`, `C51_first_line`, `C51_malformed`, `C51_no_line_break`, `C51_rst`, `C51_text`, `C52_from`, `C52_guess_failures`, `C52_no_patch`, `C52_not_found`, `C52_patch`, `C53_conf_file`, `C53_default`, `C53_guess`, `C53_missing_path`, `C53_no_type`, `C53_patchline`, `C53_path`, `C53_rads`, `C53_type_path`, `C53_types`, `C54_champions`, `C54_composition`, `C54_items`, `C54_items_error`, `C54_rest`, `C54_set_data`, `C54_traits`, `C54_translated`, `C55_basenames`, `C55_extensions`, `C55_from_game`, `C55_loot`, `C55_prefixes`, `C55_root`, `C55_substitute_basenames`, `C56_add`, `C56_digits`, `C56_numbers`, `C56_percent`, `C56_words`, `C57_character`, `C57_lang`, `C57_lcu`, `C57_plugin`, `C57_plugin_error`, `C57_region_lang`, `C57_skin_groups`, `C57_skins`, `C57_skins_once`, `C57_suffixes`, `C58_bin`, `C58_bin_stored`, `C58_file`, `C58_not_ascii`, `C58_wad`, `C59_abort`, `C59_clean`, `C59_collision`, `C59_complete`, `C59_frame`, `C59_full`, `C59_keeps`, `C59_outside`, `C59_overwrite`, `C59_recovers`, `C59_refused_met`, `C59_refused_plain`, `C59_refused_wad`, `C59_stale_tex`, `C59_strings`, `C59_strings_met`, `C59_succeeds`, `C60_agree`, `C60_cached`, `C60_elements`, `C60_failure`, `C60_history`, `C60_interrupted`, `C60_lists`, `C60_metadata`, `C60_none`, `C60_pbe`, `C60_releaseElems`, `C60_succeeds`, `C60_yaml`, `C60_yaml_total`, `C61_frame`, `C61_history`, `C61_new`, `C61_reads`, `C61_reports`, `C61_retry`, `C61_succeeds`, `C62_content`, `C62_extract`, `C62_frame`, `C62_hashfile`, `C62_lazy`, `C62_lazy_extract`, `C62_list`, `C62_only_pattern`, `C62_open`, `C62_open_toc_error`, `C62_usage`, `C63_agree`, `C63_cached`, `C63_cwd`, `C63_download`, `C63_filepaths`, `C63_history`, `C63_interrupted`, `C63_none`, `C63_offline`, `C63_pbe`, `C63_succeeds`, `C63_succeeds_case`, `C63_unique`, `C63_unknown`, `C63_version`, `C63_version_succeeds`, `C63_version_succeeds_case`, `C64_agree`, `C64_elements`, `C64_failure`, `C64_pbe`, `C64_prefix`, `C64_sorted`, `C64_storage`, `C64_succeeds`, `C64_succeeds_case`, `C65_contents`, `C65_converter`, `C65_kept`, `C65_lists`, `C65_names`, `C65_one`, `C66_broken`, `C66_collect`, `C66_data`, `C66_export`, `C66_lists`, `C66_missing`, `C66_patch`, `C66_patch_stops`, `C67_all`, `C67_crash`, `C67_current`, `C67_dir`, `C67_download`, `C67_fetch`, `C67_frame`, `C67_fresh`, `C67_no_date`, `C67_race`, `C67_succeeds`, `C68_download`, `C68_errors`, `C68_list`, `C68_lt`, `C68_order`, `C68_parse`, `C68_patch_str`, `C68_roundtrip`, `C68_str`, `C68_unambiguous`, `C69_character_files`, `C69_chromas`, `C69_chromas_case`, `C69_chromas_document`, `C69_chromas_error`, `C69_chromas_refused`, `C69_game_words`, `C69_get_characters`, `C69_lcu_add`, `C69_lcu_numbers`, `C69_lcu_words`, `C69_patterns`, `C69_shaders`, `C69_unknown_files`, `C69_unknown_roundtrip`, `C69_xdbg`, `C70_json`, `C70_number`, `C70_unreadable`, `C70_wad`, `C70_wad_again`, `C71_dry`, `C71_error`, `C71_files`, `C71_game_found`, `C71_game_grep`, `C71_lcu_found`, `C71_lcu_grep`, `C71_order`, `C71_reload`, `C71_run`, `C71_usage`, `C72_augments`, `C72_augments_met`, `C72_empty_values`, `C72_export`, `C72_export_met`, `C72_missing_spell`, `C72_no_table`, `C72_readable`, `C72_succeeds`, `C72_succeeds_case`, `C72_tables`, `C73_champs`, `C73_champs_met`, `C73_champs_succeed`, `C73_champs_succeed_met`, `C73_items`, `C73_items_met`, `C73_items_succeed`, `C73_items_succeed_met`, `C73_missing_role`, `C73_names`, `C73_names_succeed`, `C73_names_succeed_met`, `C73_no_sets`, `C73_no_splash`, `C73_sets`, `C73_sets_met`, `C73_sets_succeed`, `C73_sets_succeed_met`, `C73_traits`, `C73_traits_met`, `C73_traits_succeed`, `C73_traits_succeed_met`, `C74_arena_versions`, `C74_export`, `C74_export_met`, `C74_no_table`, `C74_old_met`, `C74_succeeds`, `C74_succeeds_case`, `C74_tft_versions`, `C75_interrupt_only`, `C76_bundles`, `C76_download`, `C76_files`, `C76_files_exist`, `C76_files_lang_option`, `C76_files_relative`, `C76_lang_option`, `C76_met`, `C76_outcome`, `C76_rads_download`, `C76_rads_files`, `C76_rads_lang_option`, `C76_rads_refused`, `C76_rads_succeeds`, `C76_refused`, `C76_release`, `C76_retry`, `C76_succeeds`, `C77_ambiguous_key`, `C77_ambiguous_patch`, `C77_command`, `C77_compare`, `C77_faithful`, `C77_floats_met`, `C77_headings`, `C77_layout`, `C77_literals`, `C77_met`, `C77_names_met`, `C77_not_shown`, `C77_printable`, `C77_printed`, `C77_refused`, `C77_typed`, `C77_version_default`, `C77_version_text`, `C78_absolute`, `C78_emptied`, `C78_extract`, `C78_failure`, `C78_faithful`, `C78_no_extension`, `C78_odd`, `C78_succeeds`, `C79_ascii`, `C79_bin_dump`, `C79_bin_file`, `C79_denotes`, `C79_export_atlas`, `C79_export_bin`, `C79_export_rst`, `C79_export_skins`, `C79_libraries`, `C79_one_line`, `C79_same`, `C79_std_tuple_key`, `C79_tables_total`, `C79_unambiguous`, `C80_collect`, `C80_export`, `C80_failure`, `C80_history`, `C80_link`, `C80_output`, `C80_rads`, `C80_rads_same`, `C80_rads_succeeds`, `C80_sources`, `C80_succeeds`, `C81_abbreviation`, `C81_ambiguous`, `C81_call`, `C81_dispatch`, `C81_equals`, `C81_failed`, `C81_lang`, `C81_letter_value`, `C81_letters`, `C81_missing`, `C81_no_command`, `C81_plain`, `C81_scattered`, `C81_separator`, `C81_spellings_met`, `C81_unknown`, `C81_values`, `C82_client`, `C82_down`, `C82_file`, `C82_game`, `C82_game_server`, `C82_manifest`, `C82_server`, `C82_source`, `C82_unchanged`, `C82_unique`, `C82_update`, `C83_arena_data`, `C83_arena_files`, `C83_arena_met`, `C83_arena_script`, `C83_mixed`, `C83_no_input`, `C83_sorted`, `C83_tft_data`, `C83_tft_files`, `C83_tft_met`, `C83_tft_script`, `C83_writes`, `C84_any`, `C84_bin_dump`, `C84_bin_dumps`, `C84_bin_json`, `C84_download`, `C84_downloads`, `C84_dry_run`, `C84_export`, `C84_fetch_hashes`, `C84_fetches`, `C84_files`, `C84_files_printed`, `C84_files_stored`, `C84_hashes_guess`, `C84_lazy`, `C84_lines_all`, `C84_lines_met`, `C84_rads_downloads`, `C84_reads`, `C84_runs_met`, `C84_same`, `C84_skn_extract`, `C84_skn_extracts`, `C84_skn_no_extension`, `C84_versions`, `C84_versions_listed`, `C84_versions_met`, `C84_versions_printed`, `C84_wad_extract`, `C84_wad_extracts`, `C84_wad_lazy`, `C84_wad_list`, `C84_wad_lists`, `C85_between`, `C85_contains`, `C85_extract`, `C85_frame`, `C85_literal`, `C85_many`, `C85_matches`, `C85_prefix`, `C85_selected`, `C85_suffix`, `C85_wrong_range`, `C86_base64`, `C86_between`, `C86_decode`, `C86_injective`, `C86_length`, `C86_shape`, `C86_stray_byte`, `C86_strict`, `C86_table`, `C86_valid`, `C87_bin_file`, `C87_case`, `C87_case_all`, `C87_case_cut`, `C87_case_refused`, `C87_case_release`, `C87_case_update`, `C87_crash`, `C87_cut`, `C87_determined`, `C87_dicts`, `C87_dumps`, `C87_export_rst`, `C87_history`, `C87_loads`, `C87_pointer`, `C87_refused`, `C87_release`, `C87_release_cut`, `C87_update`, `C87_update_refused`, `C87_whitespace`, `C88_bytes`, `C88_case_bytes`, `C88_case_champions`, `C88_case_conf`, `C88_case_extension`, `C88_case_metadata`, `C88_champions`, `C88_conf`, `C88_conf_refused`, `C88_extension`, `C88_json_entry`, `C88_metadata`, `C88_metadata_refused`, `C88_unambiguous`, `C88_value`
* **Quot.sound, propext** (58 theorems): `C01_hash`, `C01_parsed`, `C02_rejects_text`, `C02_roundtrip`, `C02_text_kept`, `C03_chunking_irrelevant`, `C03_refines_flat`, `C03_short_and_backwards`, `C03_skip_read`, `C04_frame`, `C04_no_swallow`, `C04_success`, `C05_crash_boundary`, `C05_frame`, `C05_history`, `C05_success`, `C05_success_then_repeat`, `C05_where`, `C07_newest`, `C08_element`, `C08_patch`, `C12_keeps`, `C18_agree`, `C18_str`, `C20_fnv`, `C20_incremental`, `C20_last`, `C20_non_ascii`, `C20_width`, `C22_map_last`, `C23_agree`, `C23_non_ascii`, `C25_boundary`, `C25_other`, `C25_unresolved`, `C27_new_wad`, `C27_only_removes`, `C27_plain`, `C27_wad_files`, `C28_boundary`, `C39_select`, `C40_main`, `C43_files`, `C43_relpath_short`, `C46_calls`, `C46_text`, `C47_cached`, `C54_languages`, `C54_sets`, `C68_patches`, `C75_answer`, `C75_handler`, `C75_interrupt`, `C75_interrupted`, `C75_items`, `C75_lines`, `C75_next`, `C81_unique`
* **none** (5 theorems): `C18_other`, `C39_overlap`, `C40_elements`, `C54_table`, `C84_processed`
* **propext** (26 theorems): `C02_rejects`, `C04_failure`, `C05_failure`, `C05_present`, `C05_repeat`, `C05_request_error`, `C18_case`, `C22_float_keys`, `C22_keys`, `C23_path`, `C24_display`, `C25_hashed`, `C25_resolved`, `C25_symmetric`, `C26_conflict`, `C43_relpath`, `C54_failure`, `C54_rst_table`, `C61_blocked`, `C68_eq`, `C75_answer_met`, `C75_interrupted_met`, `C75_items_met`, `C75_plain`, `C75_race`, `C81_verbose`
<!-- end axioms -->
