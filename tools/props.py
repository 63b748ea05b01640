#!/usr/bin/env python3
"""Source of /verif/properties.jsonl (run to regenerate it)."""
import json, os
P = []
def p(id, title, statement, quantifier, why, anchors):
    P.append(dict(id=id, title=title, statement=statement, quantifier=quantifier, why_tests_cant=why, anchors=anchors))

S = "cdtb/storage.py"; T = "cdtb/tools.py"; W = "cdtb/wad.py"; B = "cdtb/binfile.py"; E = "cdtb/export.py"
PA = "cdtb/patcher.py"; R = "cdtb/rads.py"; H = "cdtb/hashes.py"; RS = "cdtb/rstfile.py"; SK = "cdtb/sknfile.py"
TF = "cdtb/tftdata.py"; AR = "cdtb/arenadata.py"; M = "cdtb/__main__.py"

p("C01", "Versions are totally ordered, and order agrees with equality on canonical versions",
  "For any versions built from integer tuples (or from the strings such versions print as), exactly one of a<b, a==b, a>b holds, < is transitive, a<=b is (a<b or a==b), and >, >= are their mirrors. Equality is string equality, so for non-canonical strings (e.g. '1.02' and '1.2') the two can be neither <, > nor == while being both <= and >=.",
  "all pairs/triples of versions of any length and any component values",
  "order laws range over all pairs and triples of arbitrarily long versions",
  [f"{S}: BaseVersion.__lt__, __le__, __gt__, __ge__, __eq__"])
p("C02", "Version text round-trips; patch versions depend only on their first two numbers",
  "str(BaseVersion(t)) parsed again yields t for every non-empty tuple of integers; a string version keeps its text unchanged. PatchVersion of a string with more than two numbers equals the PatchVersion of its first two numbers; fewer than two numbers is rejected; 'main' is accepted, equals only 'main', and comparing it (with <,>) to a numbered patch raises TypeError. as_int is strictly increasing on patches whose second number is below 100.",
  "all tuples of integers and all dotted strings",
  "unbounded number of components and unbounded component values",
  [f"{S}: BaseVersion.__init__, PatchVersion.__init__, PatchVersion.as_int"])
p("C03", "Streaming reads do not depend on how the network chunks the data",
  "For any way of cutting a byte stream into chunks (including empty ones), reading n bytes hands the writer exactly the next n bytes, in order, and advances by n; skipping to a position then reading n bytes yields data[pos:pos+n]; asking for more bytes than remain raises instead of returning short data; skipping backwards is refused.",
  "every byte stream, every chunking of it, every sequence of copy/skip/skip_to operations",
  "the chunking is chosen by the network; tests only sample a few chunkings",
  [f"{S}: RequestStreamReader.copy, skip, skip_to"])
p("C04", "A failed write leaves no partial file and touches nothing else",
  "Writing through the write-or-remove helper: if any step fails (creating the parent directory, opening, any single write, closing) the error is propagated and, provided removal is possible, no file exists at the path afterwards and every other file is unchanged; if nothing fails the file holds exactly the bytes written, in order.",
  "every initial filesystem, every sequence of writes, every failure point",
  "failure can strike at any of unboundedly many write steps",
  [f"{T}: write_file_or_remove"])
p("C05", "Downloads are idempotent and never leave truncated files behind",
  "Storage.download of a path already on disk (without force) performs no request and changes nothing; otherwise on success the file content equals the response body, and on any error the destination is not left truncated: it does not exist afterwards, or (forced download, request refused) it is the file that was there before. Repeating any sequence of downloads with the same server content gives the same files; in particular a file present after any history of (possibly failing) downloads has exactly its server content.",
  "every history of downloads with arbitrary failures, every server content",
  "the invariant must survive every history of interleaved successes and failures",
  [f"{S}: Storage.download", f"{T}: write_file_or_remove"])
p("C06", "Parallel bundle download is schedule-independent",
  "Downloading a set of distinct bundles with a pool of worker threads ends in the same storage state as downloading them one after the other, for every interleaving of the workers' filesystem steps: each bundle has the content the server gives, nothing else changes.",
  "every set of bundle ids, every interleaving of the worker steps",
  "thread schedules cannot be enumerated by tests",
  [f"{PA}: PatcherReleaseElement.download_bundles, PatcherStorage.download_bundle", f"{S}: Storage.download"])
p("C07", "patches() groups consecutive elements by version and keeps the newest of each name",
  "For any sequence of patch elements, the versions of the generated patches are the versions of the sequence with consecutive repeats merged; each patch holds, for every element name occurring in its run, exactly the first (newest) element with that name, in order of first occurrence, all with the patch's version; if versions never come back (monotone storage), each version appears once.",
  "every finite sequence of patch elements",
  "arbitrary sequences of elements and versions",
  [f"{S}: Storage.patches, Patch._create"])
p("C08", "Looking up a patch or an element returns the newest match, or None",
  "patch(version) returns the first generated patch with that version and None when there is none; patch_element(name, version) returns the first element with that name (and version, when given) and None when there is none. patch() without version returns the first patch; when the storage is empty it raises StopIteration (the documented None is not returned). latest() of a generated patch has the same elements as the patch.",
  "every finite sequence of patch elements, every requested version and name",
  "arbitrary storages",
  [f"{S}: Storage.patch, Storage.patch_element, Patch.latest"])
p("C09", "Component strings are accepted exactly per the documented grammar",
  "A component string is accepted exactly when it is (patch|game|client)= followed by nothing, by 'main', or by a digit group followed by groups of '.', digits and an optional '.', with at most one trailing newline; an empty version means latest, a trailing '.' is stripped and means latest; everything else raises ValueError. The element requested from the storage has exactly the name and version text given.",
  "all strings",
  "infinitely many strings",
  [f"{S}: parse_storage_component"])
p("C10", "WAD headers of every supported version decode to exactly the entries encoded",
  "For WAD files of versions 1.x, 2.x, 3.0-3.3 and 3.4+, parsing a file laid out per the format returns exactly the list of entries (path hash, offset, sizes, type, subchunk count, first subchunk index, checksum) in order, for any number of entries and any trailing data; bad magic and unsupported versions raise ValueError; a truncated table raises an error, never a short list.",
  "all entry lists, all field values in range, all minor versions, all trailing bytes",
  "unbounded number of entries and 2^n field values",
  [f"{W}: Wad.parse_headers, WadFileHeader.__init__"])
p("C11", "Reading a WAD entry returns exactly its data or an error, never corrupted subchunks",
  "Uncompressed entries return data[offset:offset+compressed_size]; gzip/zstd entries return the decompression of that slice; redirections return None; for subchunked entries with a TOC, the result is the concatenation of the decompressed subchunks, each of which has the checksum recorded in the TOC, and if any subchunk is truncated or has a different checksum a malformed-subchunk error is raised instead of data; unknown types raise ValueError.",
  "all archives, entries, TOCs and (abstract) codecs",
  "corruption can be anywhere in arbitrarily many subchunks",
  [f"{W}: WadFileHeader.read_data, Wad.read_file_data"])
p("C12", "Unknown files get distinct, deterministic names",
  "After assigning unknown paths every file has a path; files that had one keep it; two unresolved files with different 64-bit hashes get different paths, whatever their guessed extensions; the name is the directory, 16 lowercase hex digits of the hash and the extension.",
  "all lists of files, all hashes below 2^64, all extensions",
  "2^64 hashes squared",
  [f"{W}: Wad.set_unknown_paths"])
p("C13", "Sanitized paths have an extension and fit in 250 characters",
  "After sanitizing, a path that had an extension keeps it, one that had none gets '.cdtb' (plus the guessed extension); the directory part is unchanged; names shorter than 250 characters are otherwise unchanged, and longer names are cut to exactly 250 characters ending in the hash and extension, provided the extension is at most 233 characters; beyond that the name gets 250 characters longer instead.",
  "all paths, hashes and guessed extensions",
  "arbitrary strings and lengths around the boundary",
  [f"{W}: Wad.sanitize_paths"])
p("C14", "Extracting a WAD writes every readable file once, and lazy extraction never modifies existing files",
  "Extraction creates, for each entry with readable data, a file at output/path with exactly that data (the last entry wins when paths collide); redirections, malformed subchunk entries and too long names are skipped; nothing outside the listed paths is changed; without overwrite, any file that existed before is left untouched.",
  "all archives, all initial filesystems",
  "arbitrary collections of entries and pre-existing files",
  [f"{W}: Wad.extract, WadFileHeader.extract"])
p("C15", "Extension guessing follows the magic-number table with first match priority",
  "Data that starts with a known signature (and has no JFIF/Exif marker at offset 6) gets the extension of the longest signature it starts with, whatever follows; for every signature but 'r3d2' (which begins longer ones) the signature alone decides; no signature is made unreachable by an earlier one; data with the marker and no other signature is 'jpg'; data matching nothing is 'json' exactly when it parses as JSON, else None.",
  "all byte strings",
  "all suffixes of all signatures",
  [f"{W}: WadFileHeader.guess_extension"])
p("C16", "The cross-WAD extension cache is transparent",
  "If a path hash always designates data with the same guessed extension, the extensions computed for any sequence of WAD files are the same as without the cache, independent of which WADs were processed before; extensions already known are never changed. (When the same hash has different data in two WADs, the first one seen wins.)",
  "every sequence of WADs processed in one process",
  "depends on the whole processing history",
  [f"{W}: Wad.guess_extensions, _hash_to_guessed_extensions"])
p("C17", "RST string tables decode every entry",
  "For RST versions 2-5 and any game version, parsing a table laid out per the format maps each (hash, text) entry to its text: the 64-bit word splits into offset and 40/39/38-bit hash without loss, the text is the bytes from its offset to the next NUL, encrypted entries are base64 of their payload, later duplicates win. A text that is not NUL-terminated loses its last byte.",
  "all tables, hashes, offsets and texts",
  "unbounded tables and 64-bit words",
  [f"{RS}: RstFile.parse_rst"])
p("C18", "RST lookups are consistent and case-insensitive",
  "For every key, `key in rst`, rst[key] and rst.get(key, d) agree: contained exactly when rst[key] returns, and get returns that value or the default; string keys differing only by case give the same result; integer keys are reduced to the table's hash width.",
  "all tables and all keys",
  "all keys",
  [f"{RS}: RstFile.__getitem__, __contains__, get, key_to_hash"])
p("C19", "Exported OBJ faces reference the right vertices",
  "For a SKN file with the layout of any supported version, each submesh gets exactly its slice of vertices; when the submesh's raw indices are within its vertex range, every face index written is between 1 and the number of vertices written and designates the same vertex as in the source; each group of three indices yields one face line; a count that is not a multiple of three raises.",
  "all meshes, submesh ranges and index lists",
  "arbitrary index data",
  [f"{SK}: SknFile.__init__, to_obj"])
p("C20", "The BIN hash is FNV-1a on the lowercased ASCII name",
  "compute_binhash equals 32-bit FNV-1a of the lowercased bytes for every ASCII string, is always below 2^32, ignores ASCII case, can be computed incrementally, and non-ASCII input raises.",
  "all strings",
  "infinite domain with modular arithmetic",
  [f"{B}: compute_binhash"])
p("C21", "BIN type codes of every game era map to the right types",
  "For every patch version and every byte, the type decoded is the one of that era's table (before 9.23: complex types start at 18; 9.23-10.7: 0x80 flag without LIST2; from 10.8: identity), distinct codes never decode to the same type, and any other byte raises ValueError.",
  "all patch versions and all 256 codes",
  "unbounded versions; tests sample a few codes",
  [f"{B}: BinReader.parse_bintype, BinType"])
p("C22", "BIN files decode to exactly the values encoded, at any nesting depth",
  "Reading a BIN (PROP or PTCH) file laid out per the format returns exactly the version, linked files, entries and patch entries encoded, for arbitrarily nested lists, structs, embeds, options and maps, consuming exactly the encoded bytes; bad magic raises ValueError; an entry whose recorded length is wrong raises.",
  "all value trees of any depth and size",
  "unbounded recursion depth and size",
  [f"{B}: BinFile.__init__, BinReader"])
p("C23", "Field access on BIN objects behaves like an ordered map",
  "obj[key], key in obj, get, getv and get_path agree; the first field with the key's hash is returned; after obj[key]=f (with f named key) obj[key] is f, other keys are unaffected, and the number and order of fields change only by appending a new key; names are looked up case-insensitively.",
  "all objects, keys and sequences of assignments",
  "arbitrary histories of assignments",
  [f"{B}: BinObjectWithFields"])
p("C24", "JSON serialization of BIN objects loses no field unless names collide",
  "The serialized object has exactly one key per distinct displayed field name plus '__type'; when displayed names are distinct and none is '__type', every field's serialized value is present under its name; unresolved hashes are displayed as '{8 hex digits}' and distinct hashes display differently; null structs serialize to null.",
  "all objects at any depth",
  "all value trees",
  [f"{B}: to_serializable methods"])
p("C25", "Comparing a hashed BIN name with a string",
  "Two hashed names are equal exactly when their hashes are; comparing an unresolved name to a string compares hashes (so ignores case); comparing a resolved name compares the resolved text exactly, so resolving a name can turn a match into a mismatch when the hash list spells it with another case.",
  "all hashes, hash lists and strings",
  "depends on the hash list content",
  [f"{B}: BinHashBase.__eq__"])
p("C26", "Reduced symlink paths cover exactly the unchanged files",
  "For path sets without file/directory conflicts with paths1 a subset of paths2: a path of paths2 lies at or under one of the returned paths exactly when it belongs to paths1; no returned path is an ancestor of an excluded path; no returned path is an ancestor of another; and the result is maximal (a whole common non-excluded directory is returned as such).",
  "all finite sets of paths",
  "arbitrary trees",
  [f"{E}: paths_to_tree, reduce_common_trees, reduce_common_paths"])
p("C27", "Filtering against a previous export drops exactly the identical files",
  "After filtering against another exporter, a plain file remains unless the other exports the same path from the same source; a WAD remains unless it is the same WAD file; inside a WAD exported by both, a file remains exactly when the other WAD has no entry with the same path hash and checksum. For version 1 WADs (no checksum) every file is dropped, even changed ones.",
  "all pairs of exporters",
  "arbitrary sets of files",
  [f"{E}: Exporter.filter_exporter"])
p("C28", "Cleaning the output removes exactly the extra files",
  "After cleaning, every regular file and symlink not listed to be kept is gone, every kept file and everything inside kept directories is unchanged, and no file is created; directories that still contain something remain.",
  "all directory trees and all kept sets",
  "arbitrary trees",
  [f"{E}: Exporter.clean_output_dir, walk_output_dir"])
p("C29", "A symlinked export provides every exported path exactly once",
  "When exporting with a previous patch and symlinks, each path of the new patch is either extracted or at/under exactly one symlink, never both, the symlinked part only contains paths existing in the previous export, and the list of exported files is exactly the set of new paths; without symlinks the list additionally contains 'cdragon'.",
  "all pairs of patches",
  "arbitrary file sets",
  [f"{E}: CdragonRawPatchExporter.process"])
p("C30", "Updating an export directory pairs each patch with the next older one",
  "Exporters are returned oldest first, one for each version directory (not older than the requested first version), each one paired with the next older selected patch, the oldest with none; if some directory's version is not found in the storage (and the scan was not cut by `first`), an error is raised.",
  "all directory listings and storages",
  "arbitrary histories of exports",
  [f"{E}: CdragonRawPatchExporter.from_directory"])
p("C31", "TEX to DDS conversion keeps dimensions and the largest mipmap",
  "For every valid TEX file of a supported format, the DDS produced has a 128 (or 148 for DX10) byte header holding the width, height and pixel format of the source, followed by exactly the pixel data (the last, largest mipmap when there are mipmaps); invalid magic, short data and unsupported formats raise a conversion error.",
  "all dimensions, formats and pixel data",
  "all dimensions up to 65535 squared",
  [f"{E}: TexConverter.tex_to_dds"])
p("C32", "Atlas and champion skin information decode to exactly what was encoded",
  "Parsing an atlas file (string based or hash based) or a championskins.info file laid out per the format returns exactly the textures with their atlas path and coordinates / the champions with their skins, with later duplicates winning; bad magic or version raises ValueError.",
  "all files of the formats",
  "unbounded counts and strings",
  [f"{E}: AtlasInfoConverter.parse_atlasinfo, ChampionSkinInfoConverter.parse_championskininfo"])
p("C33", "Bundle chunks are located exactly",
  "For every list of chunks added to a bundle, chunk offsets are the running sums of the compressed sizes, so that for a bundle file that is the concatenation of the compressed chunks, loading any chunk returns its decompressed content, and extracting a file returns the concatenation of its chunks' contents in order.",
  "all chunk lists",
  "unbounded numbers of chunks",
  [f"{PA}: PatcherBundle.add_chunk, PatcherStorage.load_chunk"])
p("C34", "The shared extracted-file store always holds correct contents",
  "After any history of file extractions (with or without overwrite, with arbitrary failures such as missing bundles), every file in the shared store holds the content designated by its chunk list, and a successfully extracted path resolves to its file's content; two files share a stored copy only if they have the same chunk list (assuming no SHA-1 collision).",
  "all histories of extractions and failures",
  "invariant over unbounded histories",
  [f"{PA}: PatcherStorage.extract_file, PatcherFile.hexdigest, PatcherReleaseElement.extract_file"])
p("C35", "Downloading then extracting an element never misses a bundle",
  "After downloading the bundles of an element (skipping already extracted files), extracting the element with the same language filter finds every bundle it needs, whatever subset was already extracted or already downloaded; afterwards every selected file is extracted.",
  "all manifests, language filters and initial storage states",
  "all combinations of partially extracted state",
  [f"{PA}: PatcherReleaseElement.bundle_ids, download_bundles, extract, is_extracted_file, PatcherPatchElement.download"])
p("C36", "Manifest file names are the full directory path",
  "For a manifest whose directories form a forest, each file's name is the names of its ancestors from the root joined by '/' and its own; a missing directory raises KeyError; with a directory cycle the computation does not terminate.",
  "all directory forests of any depth",
  "unbounded depth",
  [f"{PA}: PatcherManifest.parse_body"])
p("C37", "Manifest field tables decode present and absent fields",
  "Reading a field table returns, for each declared field, its encoded value when its vtable slot exists and is non-zero and None otherwise, wherever the vtable and strings are placed in the file; fields beyond the vtable are None.",
  "all vtable layouts and field values",
  "arbitrary layouts",
  [f"{PA}: PatcherManifest._parse_field_table, _parse_table"])
p("C38", "Fetching updates records each distinct release once",
  "Along any history of fetches, a fetch whose manifest URLs equal the last recorded release changes nothing; otherwise a release with exactly these URLs is recorded and becomes the latest; releases are then listed newest timestamp first; an interruption between the two writes never makes the latest pointer designate a missing release; after failures and interruptions (except within the write of the pointer), a fetch during which nothing fails succeeds.",
  "all histories of fetches, clock values and interruption points",
  "histories and crash points",
  [f"{PA}: PatcherStorage.fetch_latest_update, iter_releases, latest_timestamp"])
p("C39", "Language filters select exactly the right files",
  "langs=True selects every file; langs=False exactly those without a locale flag (5 characters containing '_'); a language selects exactly files having that flag ignoring case; files selected for two different languages or none only overlap when flags say so. A list of languages is documented but raises AttributeError.",
  "all flag lists and languages",
  "arbitrary flags",
  [f"{PA}: PatcherFile.langs_predicate, PatcherManifest.filter_files"])
p("C40", "RADS patch elements are merged newest first without loss",
  "The merged sequence contains exactly the elements of the client and game solutions, each solution's elements in their order; if both are sorted from the newest, so is the result; on equal versions the client element comes first.",
  "all pairs of element sequences",
  "arbitrary sequences",
  [f"{R}: RadsStorage.patch_elements"])
p("C41", "RADS extraction writes each file's exact bytes whatever the manifest order and chunking",
  "For package entries that do not overlap within a package, extracting any subset writes for each file exactly bytes[offset:offset+size] of its package (decompressed when compressed), independent of the order of the manifest and of how the network chunks the stream; already extracted files are not rewritten; overlapping entries raise an error.",
  "all manifests, subsets, chunkings",
  "arbitrary chunkings and orders",
  [f"{R}: RadsProjectVersion.extract", f"{S}: RequestStreamReader"])
p("C42", "Solution manifests decode to the dependency map",
  "Parsing a solutionmanifest laid out per the format returns, for each language, exactly the listed project versions in order, and under None the projects marked required; wrong magic, name or version lines raise; a dependency on an undeclared project raises KeyError.",
  "all manifests",
  "unbounded numbers of projects and languages",
  [f"{R}: RadsSolutionVersion.dependencies, projects"])
p("C43", "Package manifest lines and export paths decode exactly",
  "A package manifest line gives back its path (without leading '/' and '.compressed' suffix), package, offset and size for every field without comma; a line with another number of fields raises. The export path of a file is its path after the first five components, lowercased.",
  "all lines",
  "all strings",
  [f"{R}: BinPackageFile, RadsPatchElement.relpaths"])
p("C44", "Hash files round-trip through save and load",
  "Saving any hash table and loading it again gives the same table, for every table whose paths contain no line break; lines are sorted by path; loading keeps the last line of a duplicated hash.",
  "all hash tables",
  "arbitrary tables and strings",
  [f"{H}: HashFile.load, HashFile.save"])
p("C45", "Hash guessing never corrupts the hash table",
  "After any sequence of checks of any candidates: every previously known hash keeps its path; every new entry is a hash that was unknown, associated to a checked candidate that hashes to it; known and unknown stay disjoint and their union is constant.",
  "all histories of candidate checks",
  "histories",
  [f"{H}: HashGuesser.check, check_iter, is_known, _add_known"])
p("C46", "Hash guessing finds the same hashes in any candidate order",
  "The set of hashes resolved by checking a collection of candidates is the set of unknown hashes hit by some candidate, independent of candidate order and repetitions; for each the first candidate hitting it is recorded.",
  "all candidate sequences and permutations",
  "all permutations",
  [f"{H}: HashGuesser.check_iter, check_text_list"])
p("C47", "directory_list returns all ancestor directories",
  "The computation terminates and returns, without repetition, exactly the directories obtained by repeatedly taking the parent of a known path.",
  "all sets of paths",
  "unbounded depth; termination",
  [f"{H}: HashGuesser.directory_list"])
p("C48", "Word lists contain exactly the words of the paths",
  "build_wordlist returns, sorted without repetition, exactly the parts of the paths delimited by '/', '_', '.', '-' except the last part of each path and except numbers of three digits or more.",
  "all path collections",
  "arbitrary strings",
  [f"{H}: build_wordlist"])
p("C49", "Asset path conversion lowercases and maps textures to PNG",
  "convert_cdragon_path is idempotent, its result is lowercase, its directory part is the lowercased directory, '.dds' and '.tex' extensions (any case) become '.png', any other extension is kept; a leading-dot name is not an extension.",
  "all paths",
  "all strings",
  [f"{T}: convert_cdragon_path"])
p("C50", "Manifest URLs are mapped to the same path as on the CDN",
  "A manifest URL on the CDN (with or without '.secure.') with a 16 digit uppercase hex id is stored at exactly the path of the URL; ids given as integers below 2^64 give the same path as their URL; any other URL raises ValueError without any download.",
  "all URLs and ids",
  "all strings and 2^64 ids",
  [f"{PA}: PatcherStorage.download_manifest"])
p("C51", "Text translation tables are decoded except for their first line",
  "Loading a non-RST translation file maps each `tr \"key\" = \"value\"` line to its key and value with later lines winning; because the first three bytes are consumed by format detection, an entry on the very first line is lost.",
  "all translation files",
  "all files",
  [f"{TF}: load_translations"])
p("C52", "The multi-patch export command",
  "`cdtb export` without a patch argument never exports anything: with --from or --previous it reports a usage error and without --from it raises, whatever the storage and the output directory. With a patch, the previous patch used is the one requested, none with --full, or the one that follows the patch in the stored list.",
  "all argument combinations and storages",
  "all combinations",
  [f"{M}: command_export"])
p("C53", "Storage selection from command line and paths",
  "A path that is neither a directory nor a file is read as type:path (split at the first ':') or as a patcher storage; configuration always has a type and a path; unknown types raise ValueError. --patchline is honoured for patcher storages given explicitly and refused for others, but ignored when the default storage is used.",
  "all paths, configurations and filesystems",
  "all strings",
  [f"{S}: storage_conf_from_path, load_storage_conf, Storage.from_conf", f"{M}: parse_storage_args"])
p("C54", "TFT output: sets only contain known champions and translations are applied",
  "Each output set lists, in order, exactly the champions of the set that have data; set data and the sets map agree; an item's composition refers to existing items; each language file is produced from the same untranslated template, so languages do not influence each other. Shared entries are translated once per occurrence, so a translated text that is itself a key is translated again.",
  "all game data and all language tables",
  "arbitrary data",
  [f"{TF}: TftTransformer.build_output_sets, export, parse_items"])
p("C55", "What the guessing methods find: basenames, extensions, prefixes, game files",
  "Each guessing method resolves exactly the unknown hashes of its candidates and changes nothing else: check_basenames tries the names in every ancestor directory of known paths, substitute_basenames the known basenames in these directories, substitute_extensions known paths with known extensions (except those ending with 00), check_basename_prefixes known paths with a prefix on the basename, guess_from_game_hashes the game images and JSON files below the client's game data. Files of the root directory are never found by the basename methods. The last step of guess_patterns succeeds only if it finds nothing.",
  "all hash functions, all guessers after any calls, all names, prefixes and paths",
  "the candidate set depends on all the known paths together, and the effect on collisions of the hash function",
  ["cdtb/hashes.py: HashGuesser.check_basenames, substitute_basenames, substitute_extensions, check_basename_prefixes", "cdtb/hashes.py: LcuHashGuesser.guess_from_game_hashes, guess_patterns"])
p("C56", "What word and number substitution find",
  "substitute_numbers replaces each number of a basename that comes before an extension by every number below nmax (or, with a number of digits, each piece of that many digits by the zero-padded numbers); substitute_basename_words replaces nold consecutive words of such basenames by any nnew words separated by - or _; add_basename_word inserts a word before or after each word. Exactly the unknown hashes of these candidates are resolved. Zero words are refused. A percent sign in a path makes the method fail.",
  "all hash functions, guessers after any calls, lists of paths and words, nmax, nold, nnew and numbers of digits",
  "candidates are defined by regular expressions with look-ahead on arbitrary paths",
  ["cdtb/hashes.py: HashGuesser._substitute_basename_words, _add_basename_word, _substitute_numbers"])

p("C57", "What the substitution of plugins, regions, languages, suffixes, characters and skins finds",
  "substitute_plugin, substitute_region_lang, substitute_lang, substitute_suffixes, substitute_character, substitute_skin_numbers, guess_skin_groups_bin and guess_from_lcu_hashes try exactly the documented variants of the known paths: another plugin name, another region and language, another language code everywhere in the path, another suffix before the extension, another character name everywhere in the path, other (always different) skins of the same character, all groups of skins of a character, and game files of the client with game extensions. Every unknown hash of a variant is resolved, and nothing else changes. A known path directly under plugins/ makes substitute_plugin fail, and a path with the same skin twice is never tried.",
  "all hash functions, all reachable guessers, all known paths without '%' or '{' where a format is used, all client paths",
  "The variants are combinations of all known paths with all names found in known paths; tests only see small path sets.",
  ["cdtb/hashes.py: LcuHashGuesser.substitute_plugin, LcuHashGuesser.substitute_region_lang, GameHashGuesser.substitute_lang, GameHashGuesser.substitute_suffixes, GameHashGuesser.substitute_character, GameHashGuesser.substitute_skin_numbers, GameHashGuesser.guess_skin_groups_bin, GameHashGuesser.guess_from_lcu_hashes", "cdtb/data.py: REGIONS, Language"])

p("C58", "Paths found in the content of game files",
  "Searching a wad for paths tries, for every file, exactly the paths its content mentions: in bin files every text that starts with a known "
  "directory, with the length stored in front of it (so a path stored with its length is found wherever it is), and its related paths "
  "(compiled scripts, shader variants, textures, map geometry); in preload files, shaders and atlases the quoted names and lines; in the others "
  "every path-like text, whole and cut at the length in front of it. Links and files of the skipped types give nothing. "
  "A name that is not in ASCII in a preload file stops the search with an error.",
  "every guesser state reached by the API, every list of wad files with any content, extensions and known paths",
  "paths appear at any position in arbitrary binary content, after arbitrary lengths; tests only look at a few files",
  ["cdtb/hashes.py:GameHashGuesser.grep_wad", "cdtb/hashes.py:GameHashGuesser.grep_file"])

p("C59", "What an export leaves on disk, and resuming it",
  "Exporting writes only the converted paths of the exported files (and the directories they are in). Whatever fails while writing, it never leaves "
  "a partial file or a partial directory: each converted path has exactly its converted content or is absent. After any number of interrupted or "
  "failed exports, with or without overwriting, an export without disk errors that succeeds leaves every file converted, the same as a single export. "
  "Without overwriting, a file whose converted paths exist is not touched. A file that is known not to be convertible (image, texture, bin) is skipped "
  "and the export goes on; a malformed string table, mesh, atlas or skin list stops it with an error. "
  "The JSON of a string table names each string by the known text with its hash, or by the ten hexadecimal digits of the hash between braces. A name refused by the system is ignored for a "
  "file of a WAD, and stops the export for another file.",
  "all exporters, sources and contents, all disks, all faults at any write of any file, all histories of exports; separate and ordinary exported paths, "
  "and submesh names without slashes",
  "it depends on the point at which a write fails among all the writes of all files, and on the history of previous exports",
  ["cdtb/export.py: Exporter.export, Exporter._export_plain_file, Exporter._export_wad", "cdtb/export.py: CopyConverter, ImageConverter, TexConverter, BinConverter, SknConverter, RstConverter, AtlasInfoConverter, ChampionSkinInfoConverter", "cdtb/tools.py: write_file_or_remove, write_dir_or_remove"])

p("C60", "The patch version of an element of a release",
  "The patch version of an element of a release of the patcher is the one written in its own files: the branch of the first line of system.yaml giving "
  "one for the client, the first two numbers of the version of content-metadata.json for the game. This stays true after any history of downloads, "
  "extractions and version requests, failed or not, with manifests, bundles and files already there or not, as long as writing the version cache is not "
  "interrupted; a version already returned is returned again without any download. A failed request leaves no cache, so that the next one tries again. "
  "When nothing fails a request succeeds, whatever the storage already has. "
  "If writing the cache is interrupted, later requests return no version or a wrong one, for ever. On PBE, the version is always main. Listing the patch "
  "elements gives the elements of the releases in order with their versions, up to the first one whose version cannot be found, which ends the list with an error. When nothing fails, all the elements are listed.",
  "all contents of files, all CDN contents, all disks consistent with the CDN, all histories of operations with faults at any point, all lists of releases",
  "the version depends on what previous runs left in the storage, on the point at which they failed, and on arbitrary file contents",
  ["cdtb/patcher.py:PatcherReleaseElement.patch_version", "cdtb/patcher.py:PatcherReleaseElement._retrieve_patch_version", "cdtb/patcher.py:PatcherStorage.patch_elements", "cdtb/storage.py:get_system_yaml_version", "cdtb/storage.py:get_content_metadata_version"])
p("C61", "A patch exported on top of the previous one reads as a full export",
  "Exporting a patch on top of a previously exported one, with symlinks for what did not change, gives a directory in which every file reads as if the "
  "whole patch had been exported: a path leads to a file, symlinks being followed, if and only if the patch has a file at this path, and with its content. "
  "This holds for all patches, after any history of exports on top of any already exported patch or from scratch, whatever else happens on the disk outside of their directories. "
  "An export never changes anything outside of its directory, even when it fails. It succeeds in a new directory. When it stops at any point after "
  "extra files are removed, with files incomplete or directories just created, exporting the patch again succeeds and gives the right files. "
  "The lists written with an export tell all the paths of the patch, the hashes of all the entries without path, and the symlinks of the directory.",
  "all patches with any files, all orders of iteration, all histories of exports, all contents of the disk, all points at which an export stops",
  "what is read depends on all previous exports through chains of symlinks, on what was in the directory, and on where previous runs stopped",
  ["cdtb/export.py:CdragonRawPatchExporter.process", "cdtb/export.py:CdragonRawPatchExporter._create_symlinks", "cdtb/export.py:Exporter.clean_output_dir", "cdtb/export.py:Exporter.export"])

p("C62", "WAD commands extract and list exactly what the archive holds",
  "wad-extract writes every selected file of a well-formed archive, with its exact content, at a path derived from its known name (completed by an extension "
  "guessed from its data, cut when too long) or from its hash, and changes nothing else besides creating directories for these files; redirections and corrupted files are skipped. "
  "The frame also holds when extraction fails at any point. With --lazy, nothing that exists is changed, and every selected file which does not exist is written. Usage errors change nothing. "
  "The table of subchunks is the content of the first known .subchunktoc file of the archive, and the hash file is the one given or the default one for the extension of the WAD. "
  "wad-list prints one line per file, sorted by path then hash.",
  "all archives of all supported versions with any records, all hash files, all options and patterns, all contents of the disk, all faults of writes",
  "archives, hash files and names are unbounded, extensions are guessed from contents, and where files are written depends on all of them",
  ["cdtb/__main__.py:command_wad_extract", "cdtb/__main__.py:command_wad_list", "cdtb/wad.py:Wad.__init__", "cdtb/wad.py:Wad.resolve_paths", "cdtb/wad.py:Wad.load_subchunk_toc",
   "cdtb/wad.py:Wad.guess_extensions", "cdtb/wad.py:Wad.extract", "cdtb/wad.py:WadFileHeader.extract", "cdtb/hashes.py:default_hashfile"])

p("C63", "RADS storages: files on disk and patch versions, along any history",
  "Whatever operations were run before on a RADS storage (downloads, patch versions, lists of files, any of which may have failed), files are only added, and those added have the "
  "content which the server publishes. A download that succeeds puts on disk all the files of the projects needed for the languages; downloading again or listing files then needs no "
  "server and changes nothing. A patch version that is returned is the one in the files of the server (none if the package manifest is gone or for an old client without the file), "
  "two storages agree on it, it is returned again from the cache whatever the network, and the absence of a version is not cached. The PBE storage always gives main. "
  "When nothing fails and the files are available, a download succeeds and the patch version is given, even after attempts that failed.",
  "all contents of the server in order, all histories of operations, all failures of requests, truncations of streams and faults of the disk (removal of partial files excepted), all languages and orders of sets",
  "histories, manifests and failures are unbounded, and versions are read back from files written by earlier operations",
  ["cdtb/rads.py:RadsSolutionVersion.dependencies", "cdtb/rads.py:RadsSolutionVersion.projects", "cdtb/rads.py:RadsSolutionVersion.filepaths", "cdtb/rads.py:RadsSolutionVersion.download",
   "cdtb/rads.py:RadsSolutionVersion.patch_version", "cdtb/rads.py:RadsSolutionVersion._retrieve_patch_version", "cdtb/rads.py:RadsProjectVersion._get_package_files",
   "cdtb/rads.py:RadsProjectVersion.extract", "cdtb/rads.py:RadsProjectVersion.download", "cdtb/storage.py:Storage.download"])

p("C64", "Patch elements of a RADS storage",
  "Iterating over the patch elements of a RADS storage (not the PBE one) whose files are right yields exactly one element per listed version of the client and game solutions which has a patch, with this patch; versions without a patch are dropped, nothing else is yielded. Elements of each solution come from the newest version to the oldest. If patches decrease along the versions of each solution, elements are sorted by patch and the client precedes the game for each patch. An exception only comes from a listing or from the patch version of a listed version: comparisons never fail and the second request for each patch neither fails nor gives another patch; elements yielded before an exception are the first ones of each solution. The result depends neither on the files already on the disk nor on the order of the listings. The disk only gets legitimate files, even on failure. After any earlier operations, failed or not, when the server answers, nothing is in the way on the disk and no write fails, all the elements are given without an exception. On the PBE, there is one `main` element per version, the client ones first, and nothing is read or written.",
  "all sites, good storages, listings of both solutions, contents of the disk, servers answering or failing at each request, and disk faults at each of the calls",
  "tests check one storage with a few versions; every interleaving of versions, caches, failures and orders of directory listings matters",
  ["cdtb/rads.py:RadsStorage.patch_elements", "cdtb/rads.py:RadsPatchElement", "cdtb/rads.py:RadsSolution.versions", "cdtb/rads.py:RadsSolutionVersion.patch_version"])
p("C65", "Content of a patch export",
  "The files of a patch export are determined by the collected plain files and WAD entries. Each path has exactly one conversion: images, textures, atlases, bin files, skins, texts, champion skins, or a copy, and the names of the converted files follow from it. Entries without path are named after their hash, in the `unknown` directory or in the one of their plugin; executables, libraries and `description.json` plain files are left out; entries of game WADs go below `game/`, in the directory of their language from patch 14.4, and only images, atlases, texts, fonts, JSON files, skins and bin files other than the ones of skins are kept. `files.exported.txt` has exactly these paths (and `cdragon` when there are no symlinks) whether or not they changed since the previous patch, and `files.unknown.txt` has the hashes of all entries without path, even of the ones not exported.",
  "all collected files and WAD entries, paths, versions, previous patches, with or without symlinks",
  "tests check a few paths; overlapping patterns, names made of dots, newlines, and the interplay of renaming, filtering and converting range over all paths",
  ["cdtb/export.py:CdragonRawPatchExporter._transform_exported_files", "cdtb/export.py:CdragonRawPatchExporter._create_exporter", "cdtb/export.py:Exporter.converted_exported_paths", "cdtb/export.py:Exporter.unknown_hashes", "cdtb/export.py:CdragonRawPatchExporter.process"])
p("C66", "Collecting the files of a patch from disk",
  "When a patch is exported, all its elements are downloaded in order, then their files are listed and collected. If archives can be read, and files "
  "with the same hash have the same guessed extension, the exported paths listed in files.exported.txt are exactly the converted paths of: plain files "
  "(the last source listed for each export path), and the records of archives (the last archive for each export path) besides redirections, named by "
  "their known path, completed with .cdtb and the guessed extension if it has none and shortened if it is too long, or by their hash in the unknown "
  "directory. The content of each exported file, before conversion, is the one of its record. Hashes listed in files.unknown.txt are those of the records without known path. An element that cannot be downloaded, an archive that is "
  "missing, or a file without extension that cannot be decompressed stop the collection with an error.",
  "every list of source and export paths, every content of the disk, of hash files and of archives, every state of the cache of extensions, every patch version",
  "depends on arbitrary archives, hash files, sequences of sources with the same export path, and on what has been guessed before for other archives",
  ["cdtb/export.py:Exporter.add_path", "cdtb/export.py:Exporter.add_patch_files", "cdtb/wad.py:Wad.guess_extensions", "cdtb/wad.py:Wad.sanitize_paths"])
p("C67", "Directory of hash files and its updates",
  "The directory of hash files is the one of $CDTB_HASHES_DIR, or hashes/lol in $CDRAGON_DATA, or cdragon/data/hashes/lol in the data directory of the user: "
  "$XDG_DATA_HOME if absolute, else $LOCALAPPDATA, else ~/.local/share (empty variables do not count). An update asks the server for the date of its file only "
  "if there is a local one, and downloads it if there is none or if it is older; otherwise nothing changes. A failed request changes nothing, a failed write "
  "removes the file, no other file is affected. After any history of updates, failed or not, a successful update leaves the content the server had during this "
  "update, provided the file of the server did not change during downloads nor in the second when they ended. `fetch-hashes` updates all the files the program "
  "reads by default, in order, and stops at the first error, leaving the next ones untouched; it succeeds when the server answers, files can be written and nothing on disk is in the way.",
  "every environment, every content and times of the disk, every date sent by the server, every history of updates with failures at any point, every history of the file on the server",
  "depends on clocks, on the interleaving of changes of the server with downloads, on failures at any step, and on all dates of the calendar",
  ["cdtb/hashes.py:_default_hash_dir", "cdtb/hashes.py:update_default_hashfile", "cdtb/__main__.py:command_fetch_hashes", "cdtb/rstfile.py:get_hashfile", "cdtb/tools.py:write_file_or_remove"])
p("C68", "RADS components: identity, order, component strings, listings",
  "Solutions, projects and their versions are equal exactly when they have the same class, name and text of version; equal objects have the same hash. Objects of a class are strictly "
  "ordered by name, then from the newest version, totally for usual versions; objects of different classes cannot be compared. Patches are ordered from the newest one. A component "
  "string `[s:|p:]name[=version]` is accepted exactly when it is in the grammar, can be read in one way only, and gives the solution, project, version or patch it stands for; an empty "
  "version is the first listed version of a project, and the newest listed version of a solution. Other strings raise ValueError. Objects can be written as component strings and parsed "
  "back. The listings of a storage are the names with a directory of releases. Downloading a solution puts the files of all its listed versions on the disk; if it fails, files of the "
  "versions newer than the one that failed are there and nothing else changed.",
  "every object, every string, every listing of the server, every storage and every failure of requests and disk",
  "ranges over all strings, over all pairs and triples of objects, and over failures at any point of a sequence of downloads",
  ["cdtb/rads.py:parse_rads_component", "cdtb/rads.py:RadsSolutionVersion.__lt__", "cdtb/rads.py:RadsProjectVersion.__lt__", "cdtb/rads.py:RadsSolution.download", "cdtb/rads.py:RadsStorage.list_projects", "cdtb/storage.py:Patch.__lt__"])

p("C69", "What the remaining guessing methods find",
  "Each guessing method resolves exactly the unknown hashes of its candidate paths and changes nothing else. For the client: words and numbers are replaced in known paths, except in the "
  "ones known to have no meaningful words or numbers, optionally only for a plugin, an extension or given words; guess_patterns checks the images of runes and the lists of words, then "
  "stops with RuntimeError at the first splash of a loot icon found. For the game: numbers, words, added words; the usual files of characters, given or found in known paths; variants "
  "of known shaders with numbers below 20000; the files of all groups of skins with their chromas, read from the JSON document of the server (nothing is guessed when it is not such a document). Reading the unknown hashes that an export wrote gives them back; a line that is not a "
  "number raises ValueError. Paths between quotes are taken from logs, up to the first line without quotes.",
  "every table of known paths, set of unknown hashes, history of calls, hash function, argument and text",
  "ranges over all tables of paths and all candidate paths; the methods use regular expressions on arbitrary strings",
  ["cdtb/hashes.py:LcuHashGuesser.substitute_basename_words", "cdtb/hashes.py:LcuHashGuesser.substitute_numbers", "cdtb/hashes.py:LcuHashGuesser.guess_patterns", "cdtb/hashes.py:GameHashGuesser.guess_characters_files", "cdtb/hashes.py:GameHashGuesser.guess_shader_variants", "cdtb/hashes.py:GameHashGuesser.guess_skin_groups_bin_using_chromas", "cdtb/hashes.py:HashGuesser.check_xdbg_hashes", "cdtb/hashes.py:HashGuesser.unknown_from_export"])
p("C70", "Paths found in the text files of the client",
  "Searching a WAD of the client resolves exactly the unknown hashes of these paths: for each file which is a nonempty UTF-8 text (with or without a byte order mark), the paths of "
  "plugins, of game data and of assets written in it, each read once from left to right and as far as possible; for JSON files, the usual files of the plugin it describes, the files of a "
  "splash, of the champions of the summary, of recommended items, or the images of the loot; and finally all the relative paths, quoted names with an extension, templates and source maps "
  "written in the texts, in every directory of the paths known at that time. Files of splashes and of the loot are not searched as text. A file which cannot be read, a redirection, or a "
  "JSON file with only a number stops the search with an error: next files are not searched and no relative path is checked.",
  "every WAD, every content, every value of JSON files, every table of known paths and set of unknown hashes, every hash function",
  "ranges over all texts for seven regular expressions with greedy and lazy repetitions and word boundaries, over all JSON values, and over all tables of paths",
  ["cdtb/hashes.py:LcuHashGuesser.grep_wad", "cdtb/hashes.py:HashGuesser.wad_text_files", "cdtb/hashes.py:HashGuesser.check_basenames"])

p("C71", "Command that guesses hashes",
  "The command accepts only names of its methods and needs at least one WAD or component (or only lists the methods); methods asked several times or in another order change nothing. When all "
  "arguments can be opened, it prints, for hashes of the client then of the game, only paths whose hash is in the given WADs of this type and was not in the hash file, each hash at most once; then their count "
  "if there are some. Candidates of the asked methods and paths given by the files of the WADs, if their hash is in a WAD and unknown, are found when the command succeeds. "
  "It changes only the two hash files, and only by adding what it printed: a hash file is as before, or holds the old entries and the new ones sorted by path (a prefix of this text if the writing fails), "
  "and reading it again gives these entries. A dry run changes no file, prints the same lines and ends the same way. An error leaves the hash file of the game unchanged, and everything if nothing was reported before.",
  "every hash function, all file systems, all WADs and components, all lists of methods, all failures of writing",
  "ranges over all contents of WADs and hash files, all subsets of methods, all positions where a write stops, and composes all the guessing methods",
  ["cdtb/__main__.py:command_hashes_guess", "cdtb/hashes.py:HashGuesser.from_wads", "cdtb/hashes.py:HashFile.save", "cdtb/hashes.py:HashGuesser._add_known"])

p("C72", "String tables by language, and data of Arena",
  "The string tables of a directory are those of the newest of the four known layouts that has at least one, all of them, each one under its language; there is an error if no layout has any. "
  "The exported augments are those of the map that are not disabled, in order; each one has the values of its fields or their defaults, the public paths of its icons, and the data values and calculations of "
  "the last spell with the path of its root spell: a data value listed several times has its last value, either all its values or the first one of the old list. "
  "The file of a language has all these augments, with names, descriptions and tooltips replaced by the text of the string table of this language only, if there is one. Whatever fails, only files of "
  "the requested languages and new directories change; when a language fails, files of previous languages are complete and those of the next ones are untouched. "
  "When the map and the string tables are readable and nothing fails, the export succeeds.",
  "all directories, all contents of the map and of string tables, all lists of languages, all failures of writing; ordinary names of files, an output that is not a string table",
  "ranges over all sets of languages and layouts, all objects of BIN files, and all positions where a write stops",
  ["cdtb/tools.py:stringtable_paths", "cdtb/arenadata.py:ArenaTransformer.parse_augments", "cdtb/arenadata.py:ArenaTransformer.build_template", "cdtb/arenadata.py:ArenaTransformer.export"])

p("C73", "TFT data is read from BIN files as specified",
  "Traits, names of characters, sets, champions and items of TFT are those of the entries of the map with the right type, without templates; the last entry with a path or a name wins. Effects of a level of a trait are those "
  "of its innate sets replaced by its own ones. A set is used when it has lists of characters, lists of traits, a number and a name; its characters are those of its lists that are known, in order; its traits are each one once; its augments and items are "
  "sorted by name without duplicate. A champion has the data of its own file, from the first of its two places that exists: its record, the first spell that matches, linked traits that are known, new fields if they are there and "
  "old ones otherwise, and defaults. A champion without file or spell is not there. A file without sets cannot be exported.",
  "all lists of entries of BIN files, all values of fields, all contents of files of champions, all iteration orders of Python sets",
  "ranges over all BIN objects, with any type of value in any field, and over the iteration order of sets of hashes",
  ["cdtb/tftdata.py:collect_effects", "cdtb/tftdata.py:TftTransformer.parse_traits", "cdtb/tftdata.py:TftTransformer.parse_character_names", "cdtb/tftdata.py:TftTransformer.parse_sets", "cdtb/tftdata.py:TftTransformer.parse_champs", "cdtb/tftdata.py:TftTransformer.parse_items"])

p("C74", "The export of TFT data writes complete files, for patches that have them",
  "TftTransformer.export writes one file for each requested language (by default those with a string table): the whole data read in the directory (sets in order, sets by number, items; traits and champions shared by sets), with "
  "identifiers replaced by their texts in the string table of the language. Whatever fails, only files of requested languages and new directories change; files of languages before the failing one are complete, those after it are untouched. "
  "When data and string tables are readable and nothing fails, the export succeeds. "
  "The exporter of a patch runs it for patches from 9.14 and main (from 13.14 for Arena data), and does nothing for the others.",
  "all file systems, lists of languages, versions, failures of writing and of creation of directories, iteration orders of Python sets",
  "ranges over every content of the BIN files and string tables and every point where the export can fail",
  ["cdtb/tftdata.py:TftTransformer.export", "cdtb/tftdata.py:TftTransformer.build_template", "cdtb/tftdata.py:TftTransformer.build_output_sets", "cdtb/export.py:CdragonRawPatchExporter.export_tft_data", "cdtb/export.py:CdragonRawPatchExporter.export_arena_data"])

p("C75", "Iteration with progress on interrupts gives all the items and gives the signal handler back",
  "Iterating with progress gives the items of the sequence in order, whatever the interrupt signals and their timing: no item is lost or repeated, and an iteration that ends normally gave all of them. A signal received while an item is processed is "
  "answered by one line about the next item; a single signal never interrupts, two signals less than half a second apart do. The previous handler is back when the iteration ends normally, is dropped or is interrupted while it works on an item; it is not "
  "when the interruption comes right after the handler is installed. Without a terminal the signals are not handled.",
  "all sequences, all interleavings of steps of the generator, of requests of the consumer and of signals at any times",
  "signals can be delivered between any two steps: tests cannot schedule them all",
  ["cdtb/hashes.py:sigint_callback", "cdtb/hashes.py:progress_iterate", "cdtb/hashes.py:progress_iterator"])

p("C76", "Downloading components, and listing their files",
  "When the command `download` succeeds, every file (except links) of every element of every given component, in the selected languages, is in the storage with its content, whatever failed or was downloaded before, for both types of storages. "
  "All components are checked first: if one is refused, nothing changes. On any failure the files of the storage stay right and the elements before the failing one are complete; running the command again when nothing fails succeeds, whatever the previous attempts did. `files` prints the paths of exactly the selected files, in order (or their lowercase names), "
  "and after a download they exist, except links. Extracting a whole release gives the same. With `--lang` both commands always fail when there is an element (or download nothing).",
  "all component lists, manifests, servers' answers, disk failures, thread schedules and previous states of the storage",
  "outcomes depend on failures, on interleavings of downloads and on the history of the storage",
  ["cdtb/__main__.py:command_download", "cdtb/__main__.py:command_files", "cdtb/storage.py:Patch.download", "cdtb/patcher.py:PatcherPatchElement", "cdtb/patcher.py:PatcherRelease.extract", "cdtb/rads.py:RadsPatchElement"])

p("C77", "The text of BIN files tells what is in them",
  "`cdtb bin-dump` on a BIN file prints its linked files, entries and patches with one heading line for each entry and each patch, in order, so that `grep '^<'` lists them; the values are indented by two spaces for each level. "
  "Two files that give the same text have the same linked files, entries and patches, with the same types and values at all levels (if known names are distinct words, floats are not NaN, and keys of maps and paths of patches, which are not quoted, contain no line break, `>` or, for paths, space). "
  "A path that is not a file is refused; without version, or with an empty one, the file is read as in the main branch, else with the first two numbers of the version.",
  "all BIN files, known hashes, texts (any Unicode characters), nesting levels and versions",
  "injectivity of a printer ranges over pairs of trees of any depth and all texts",
  ["cdtb/__main__.py:command_bin_dump", "cdtb/binfile.py:BinFile.dump", "cdtb/binfile.py:format_binvalue", "cdtb/binfile.py:_repr_indent_list", "cdtb/binfile.py:BinEntry", "cdtb/binfile.py:BinPatchEntry"])

p("C78", "Extraction of the submeshes of SKN files",
  "When `skn-extract` succeeds, the file `<name>.obj` of every submesh has its text (of the last one, when submeshes have the same name) and nothing else changed, but the output directory was created if needed. The text determines the positions, texture coordinates, normals and faces. "
  "When it fails nothing changed if the SKN file cannot be read; otherwise only the files of the first submeshes are written and at most one is damaged. It succeeds when names are plain, numbers of indices are multiples of 3 and the system does not fail. Without `--output`, a file without extension is never extracted.",
  "all SKN files, names of submeshes, output directories, states of the disk and failures of the system",
  "names and counts come from the file; outcomes depend on the state of the disk and on failures",
  ["cdtb/__main__.py:command_skn_extract", "cdtb/sknfile.py:SknFile", "cdtb/sknfile.py:SknFile.to_obj"])

p("C79", "JSON texts of exported and printed data",
  "The text written for any data is a JSON text (RFC 8259, with names for floats that are not numbers) which denotes this data and nothing else; it does not depend on the library (`ujson` or the standard one) nor on spaces. With `ensure_ascii` it can always be encoded in ASCII, and without indentation it is one line, whatever characters the data has. "
  "The file `<path>.json` of an exported BIN file, string table, atlas or list of skins denotes what was read from the file; string tables, atlases and lists of skins can always be written, and so can BIN files when keys of maps are integers, booleans, strings or hashes, without repeated names. `bin-dump --json` prints the data of the file. With the standard library, maps with vectors as keys are rejected.",
  "all data, strings and characters, BIN files, string tables, atlases and lists of skins, both libraries, and texts of floats that are numbers",
  "strings, keys and nesting come from game files; the grammar must accept every text and give back a single value",
  ["cdtb/tools.py:json_dump", "cdtb/tools.py:json_dumps", "cdtb/export.py:BinConverter", "cdtb/export.py:RstConverter", "cdtb/export.py:AtlasInfoConverter", "cdtb/export.py:ChampionSkinInfoConverter", "cdtb/__main__.py:command_bin_dump"])

p("C80", "An export depends on the CDN, not on the history of the storage",
  "Exporting a patch downloads its elements then collects their files. When the downloads succeed, every file which is read has the content that the server has for it, so the files which are exported, with their contents, are those of the archives and files of the server, named with the hash files. "
  "This does not depend on what the storage had before, on failed or partial downloads, on the schedule of threads, nor on the use of links in the storage: two storages give the same export. When nothing fails any more and the archives of the server can be read, the collection succeeds. When a download fails, nothing is collected and the storage keeps its files. This also holds for RADS storages, whatever the order of projects, if no two files of the patch have the same export path.",
  "all manifests, CDN contents, previous histories of the storage (with failures), schedules, archives and hash files",
  "histories, failures and schedules are unbounded; the property goes through the download, the extraction, links, archives and the selection of files",
  ["cdtb/export.py:Exporter.add_patch_files", "cdtb/export.py:Exporter.add_path", "cdtb/patcher.py:PatcherPatchElement", "cdtb/rads.py:RadsPatchElement", "cdtb/wad.py:Wad"])

p("C81", "Command lines are understood as documented",
  "For every command line made of options with their values and of positional arguments, given together before, after or between options, the command receives for each attribute the value given by the last option that sets it, or its default, and its positional arguments in order; after `--` words are never options. "
  "`--name=value`, `-xvalue`, unambiguous beginnings of long names and joined letters mean the same as the exact names followed by their values; ambiguous beginnings are refused. "
  "Command lines without a required argument, with positional arguments in two places, with unknown options or with values that are not among choices are refused before anything is done; `--lang` takes all the words that follow, so that components after it are refused. "
  "Whatever the command line, a command which is called gets all the attributes it reads, with values of the expected type which come from the command line or are defaults, and the storage selected by the options if it uses one. The number of `-v` gives the messages that are shown.",
  "all command lines (lists of words), file systems, configuration files and environments",
  "command lines are unbounded lists of arbitrary words, with abbreviations, letters that are joined, repeated options and separators; tests try a few of them",
  ["cdtb/__main__.py:create_parser", "cdtb/__main__.py:main", "cdtb/__main__.py:parse_storage_args"])

p("C82", "The latest release comes from the configured source",
  "The client URL of a patchline is the one of the first windows configuration for its region in the document of the configured source: the file if the setting names an existing file, else the server it names, else the default server; the game URL is the one of the only release published for the platform of the patchline. "
  "Anything else (missing entries, several releases, unreadable documents, HTTP errors) raises an exception and changes no file. When both documents are there, an update that returns leaves a storage whose latest release has exactly these URLs, as a new release only if they changed. With a file no server is asked for configurations.",
  "all settings, file systems, servers (functions from URLs to responses), JSON documents, patchlines and storages",
  "documents, settings and servers are unbounded, and failures of requests cannot be enumerated",
  ["cdtb/patcher.py:PatcherStorage.fetch_latest_update", "cdtb/patcher.py:PatcherStorage.get_latest_client_manifest", "cdtb/patcher.py:PatcherStorage.get_latest_game_manifest", "cdtb/patcher.py:PatcherManifest.__init__"])

p("C83", "The JSON files of TFT and Arena hold all the data, with sorted members",
  "After a successful export of TFT or Arena data, the file of each language is a UTF-8 JSON text whose value has all the augments, sets, traits, champions and items with all their attributes in this language, and the members of all objects are sorted by name. "
  "Data in which the keys of each dictionary are all texts or all integers are always written; texts and numbers as keys of one dictionary raise TypeError. "
  "The scripts of both modules read the directory, the output (default arena or tft) and the version from the command line wherever options are, use version main when it is missing or empty, export all languages, change no file if the version is wrong, and refuse a command line without input.",
  "all JSON libraries which are correct, all data, file systems, languages, failures of writes and command lines made of options and one plain word",
  "data, nesting, names of members and command lines are unbounded",
  ["cdtb/arenadata.py:ArenaTransformer.export", "cdtb/arenadata.py:main", "cdtb/tftdata.py:TFTTransformer.export", "cdtb/tftdata.py:main", "cdtb/tools.py:json_dump"])

p("C84", "A command does what its command line says",
  "For every command line that gives options with their names and positional arguments, before or after options or after `--`, each of the ten commands runs exactly once with these arguments: the WAD, BIN or SKN file, the output, the hash file, the patterns, the languages, the components, the patches and the flags are the ones given, or the documented defaults. "
  "Whatever the words of the command line, it prints a help, is refused without any change, or runs one command with arguments of the types it expects which come from it; no command fails because of a missing attribute. Listings and dumps change no file; `--lazy` never changes what exists; `--dry-run` changes nothing. "
  "The number of `-v` and the place of options do not change what is done. From the command line to the disk: `wad-extract` leaves each selected file of a readable archive in the output directory, `wad-list` prints its files, `skn-extract` writes one OBJ file per submesh, `bin-dump` prints the content of a readable BIN file, as text or as JSON, `fetch-hashes` leaves the hash files of the server (or newer ones), `download` leaves the files of the components in the storage, when nothing fails and nothing is in the way. `files` prints the paths of the files of the component, which after `download` are the paths of files with their contents (or of links), and `versions` prints the versions of the elements listed; both write nothing.",
  "all command lines, file systems, configuration files, environments, storages, libraries and failures of writes",
  "the words of command lines and the contents of files are unbounded; tests try a few command lines, on a few files",
  ["cdtb/__main__.py:main", "cdtb/__main__.py:command_download", "cdtb/__main__.py:command_files", "cdtb/__main__.py:command_versions", "cdtb/__main__.py:command_fetch_hashes",
   "cdtb/__main__.py:command_wad_extract", "cdtb/__main__.py:command_wad_list", "cdtb/__main__.py:command_hashes_guess", "cdtb/__main__.py:command_export",
   "cdtb/__main__.py:command_skn_extract", "cdtb/__main__.py:command_bin_dump"])

p("C85", "Patterns of wad-extract match what they say",
  "For every path and pattern, `*` stands for any text (also with slashes), `?` for any character, `[...]` for a character of a class with ranges, `[!...]` for a character out of it, and any other character for itself, with its case; all the places of `*` are considered, although matching never goes back. "
  "With `-p`, exactly the files whose known path is matched by one of the patterns are extracted, complete; nothing else is written. The exception, a range in the wrong order followed by `!`, is characterized.",
  "all paths, patterns, classes, WAD files and file systems",
  "paths and patterns are unbounded texts; tests try a few patterns",
  ["cdtb/__main__.py:command_wad_extract"])

p("C86", "String tables with encoding errors and encrypted texts are readable",
  "For every bytes of a text, reading a string table gives their valid UTF-8 characters unchanged and one U+FFFD for each longest sequence that could not be completed into a character (so a stray byte, such as a quote of another encoding, is replaced alone). "
  "Encrypted texts are given in padded base 64 of their bytes, from which the bytes can be found again.",
  "all bytes, texts, offsets and versions of string tables",
  "the texts are arbitrary bytes; tests use a few sequences",
  ["cdtb/rstfile.py:RstFile.parse_rst"])

p("C87", "JSON documents are read as what they denote, and cut ones are refused",
  "For every text, reading JSON succeeds exactly when the text is a JSON document (with whitespace around it, and the names of infinities and of not-a-number), and gives the value it denotes, each name of an object once with its last value. "
  "What the JSON libraries wrote for any data is read back as this data: BIN files, string tables, releases with any characters in their URLs. "
  "A document that was cut anywhere is refused: a release whose file was cut by a crash raises instead of giving other URLs, and an update from a cut or invalid document changes nothing.",
  "all texts, values, URLs, points where a text is cut, histories of updates",
  "texts, nesting and points where a text is cut are unbounded",
  ["cdtb/patcher.py:PatcherStorage.fetch_latest_update", "cdtb/patcher.py:PatcherStorage.get_latest_client_manifest", "cdtb/patcher.py:PatcherRelease.__init__", "cdtb/storage.py:load_storage_conf"])

p("C88", "JSON data and files: extensions of archive entries, storage configurations and versions",
  "Bytes are read as JSON exactly when they are a JSON document in UTF-8, UTF-16 or UTF-32, in any byte order, with or without a byte order mark, and never as the document of another encoding. "
  "So an archive entry without signature gets the extension json exactly when it is such a document, and a list or an object in UTF-8 always does unless it has a JPEG marker. "
  "A storage configured by a file gets the last value of each name of its document, with the path relative to the file; a file that is not JSON or has no type is refused. "
  "The version of a content-metadata.json file is given by the last member version of its document. "
  "When hashes are guessed from a client archive, the summary of champions gives the paths of the files of all its champions.",
  "all bytes, texts, documents, encodings, disks, paths, archives and hash tables",
  "contents of files, documents and encodings are unbounded",
  ["cdtb/wad.py:WadFileHeader.guess_extension", "cdtb/storage.py:load_storage_conf", "cdtb/storage.py:storage_conf_from_path", "cdtb/storage.py:get_content_metadata_version", "cdtb/hashes.py:LcuHashGuesser.grep_wad"])

out = os.path.join(os.path.dirname(__file__), '..', 'properties.jsonl')
with open(out, 'w') as f:
    for x in P:
        f.write(json.dumps(x) + "\n")
print(len(P))
