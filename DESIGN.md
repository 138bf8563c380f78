# Formal model of Purg/vital in Lean 4 — design

## Method

The C++ of `/repo` is read as text and re-expressed as small total functions in Lean 4
(`/verif/lean/Verif/*.lean`).  Every model definition carries a comment `-- models: file:lines`.
Model and helper lemmas live in `Verif/<Area>/Model.lean`, `Verif/<Area>/Lemmas.lean`; the property
theorems live in `Verif/<Area>/Props.lean` together with the small specification they
are stated against and with `example`s showing that their hypotheses are met.

Conventions

* `std::string` is `Str = List Char`; a `Char` with code < 256 stands for a C++ `char` (as `unsigned char`).
  `std::isspace` is the "C" locale set { space, \t, \n, \v, \f, \r }.
* `std::map` / `std::set` keyed by strings are association lists kept sorted by the byte-wise
  lexicographic order (`char_traits<char>::lt`), because iteration order is observable.
* Exceptions are values of an error type (`Except Exc α`); undefined behaviour is a distinct outcome.
  A function that mutates returns the new state *also when it throws* (`State × Except Exc α`),
  because partial effects are observable in C++.
* Shared objects (`shared_ptr`) live in an explicit heap, so aliasing is modelled.
* Recursion through files is fuel indexed; running out of fuel is the outcome "still running",
  and termination / divergence are theorems about fuel.
* Floating point rounding is *not* modelled.  Numeric code (`Verif/Geo`) is stated in exact arithmetic over ℝ;
  number formatting of files (`Verif/IO`) is an abstract `NumFmt` with the round-trip laws it needs as
  hypotheses, satisfied by concrete instances in the examples.
* Where the order of evaluation or the content of an uninitialised object is left open by the language, the
  model takes it as a parameter (`junk`, evaluation order flags) and theorems quantify over it.

## Trusted base

* Lean 4.33.0 kernel; axioms at most `propext`, `Classical.choice`, `Quot.sound` (per theorem list: see
  `AXIOMS.md`, generated by `tools/gen.py`).  No own axioms, no compiled-code tactics.
* The faithfulness of the hand translation (comments cite the lines).
* The C++ standard library contracts used as the meaning of `std::map`, `std::vector`, `std::string`,
  `std::getline`, `std::lower_bound`, `std::sort`, iostream formatting and extraction of integers.
* Eigen is not part of /repo.  `Verif/Geo` models the few Eigen functions the code calls from knowledge of Eigen:
  quaternion product, conjugate, action, conversion from and to matrices and angle-axis, `slerp` is not used;
  3x3 determinant and inverse; `JacobiSVD` is any decomposition meeting its specification (`IsSVD`: orthogonal
  factors, non-negative descending singular values); `J.ldlt().solve` is any function that solves positive
  definite systems exactly (`ExactSolver`).  `atan2` is `Complex.arg`; the constant `pi` is π.
* Threads (`Verif/Logger/Threads`): interleaving semantics with sequentially consistent atomic steps, any number of
  threads, any schedule.  A data race, which is undefined behaviour in C++, appears as an interleaving.
* The dynamic linker (`Verif/Algo/Plugins`): a library in memory is not read again, each open adds a use, each close removes one,
  the library leaves memory at zero uses.
* The file system and the environment (`Verif/Sys/World`) are fixed during a call, except where a theorem is about writing.

### Modelled

| area | files (functions named in the `models:` comments) | Lean |
|------|------|------|
| configuration blocks | config_block.{h,cxx}, config_block_exception, token_expander, token_type_symtab/config/env | `Verif/Config/{Model,Spec,Lemmas*,Props,Location,Num,Expand}` |
| config files | config_parser.cxx, config_block_io.cxx, util/tokenize.h | `Verif/Config/{Parser*,ReadFile*,Write*}`, `Verif/Util/Tokenize` |
| tracks | track.{h,cxx}, track_set.{h,cxx} | `Verif/Track` |
| types | timestamp, timestamp_config.h, image.{h,cxx}, covariance.h, geo_lat_lon, color.h, feature, landmark, descriptor.h, homography_f2w | `Verif/Types`, `Verif/IO/Text`, `Verif/Geo/LatLon` |
| geometry | rotation, similarity, homography, homography_f2f, camera, camera_intrinsics, essential_matrix, fundamental_matrix | `Verif/Geo` |
| file formats | landmark_map_io, track_set_io, camera_io, camera_map_io, eigen_io.h | `Verif/IO` |
| algorithms | algorithm.{h,cxx,txx}, registrar.h, optimize_cameras, estimate_*, filter_features, image_io, algorithm_plugin_manager | `Verif/Algo` |
| logger | default_logger, kwiver_logger, kwiver_logger_manager, location_info, logger.h | `Verif/Logger` |
| C interface | common.cxx, error_handle, c_utils, config_block, camera_map, track_set (new), image, image_container, algo_def/convert_image, algorithm, helpers/algorithm.h | `Verif/CApi` |
| kwiversys | Base64.c; MD5.c; System.c; Glob.cxx; CommandLineArguments.cxx; hashtable, hash_map, hash_set; path, path-translation, environment, search, text, line, URL and date functions of SystemTools.cxx; RegularExpression.cxx, .hxx.in | `Verif/Sys`, `Verif/Regex` |
| file operations | SystemTools.cxx: FileExists, FileIsDirectory, FileIsSymlink, Get/SetPermissions, RemoveFile, FilesDiffer, MakeDirectory, RemoveADirectory, CopyFile*, CopyADirectory, on a tree model of the POSIX calls | `Verif/Files` |
| processes | ProcessUNIX.c (the select variant): configuration, timeouts, table of processes and signal dispositions, waiting, killing, the SIGCHLD notification, and starting a pipeline (kwsysProcess_Execute with descriptors, forks and failures) | `Verif/Proc` |
| Python interface | util/VitalObject.py, util/error_handle.py, config_block.py (without files), types/image.py, algo/algorithm.py, bin/maptk_track_features.py (algorithms as parameters) | `Verif/Py` |
| machine queries | token_type_sysenv.cxx; SystemInformation.cxx: ExtractValueFromCpuInfoFile, RetreiveInformationFromCpuInfoFile (without speed, chip and caches), QueryLinuxMemory, GetFullyQualifiedDomainName, QueryOSInformation | `Verif/SysInfo` |
| utilities | enumerate_matrix.h, tokenize.h, timer.h, wall_timer, cpu_timer, get_paths.cxx, whereami.c (Linux) | `Verif/Util` |

### Not modelled

Memory allocation failure, locales other than "C", Windows/macOS/Cygwin branches, floating point rounding, the Windows process control, `SystemInformation` except what $SYSENV and the Linux
cpuinfo/meminfo queries use (`Verif/SysInfo`), the log4cxx back end, the Python bindings except object ownership, config blocks, algorithms and images (`Verif/Py`), most C bindings of types, `Terminal`,
non-Linux branches of `whereami`.

## Per property plan

| id | model | proof |
|----|-------|-------|
| C01–C12 | heap of config blocks (`Verif/Config`): blocks with parent pointers, every member function as a recursive function on the heap | invariant "parents older than children, value/description stores in step" by induction over all API histories; each call resolved to the owning root block |
| C13, C14 | `config_block_get_value_cast` for bool and int; stream extraction of integers | case analysis on lower-cased strings; decimal print/parse inverse |
| C15–C18 | `expand_token` driven by a model of the regular expression matcher; token type tables | well-founded recursion on the remaining text; spec = tokenised text |
| C19–C25, C30, C31 | `process_file`, `get_line`, `get_token`, `resolve_file_name` as fuel-indexed state machine over a file system parameter | invariants over the parse state; simulation for inserted lines; fuel monotonicity, divergence by induction on fuel |
| C26–C28 | `write_config`, `write_cb_comment`, `tokenize`; round trip through the parser model | induction over sorted keys; every comment line is skipped by `get_line` |
| C29 | `read_config_file`, `config_file_paths` | induction over the search path with merge lemma of C11 |
| C32 | `tokenize` | induction on the string |
| C33–C37 | `track`, `track_set` | sortedness invariant over histories; binary search correctness |
| C38, C39 | `timestamp` operators over `Int` | case analysis; C39 is false: counterexample and restricted theorem |
| C40–C44 | `image` views over byte memories in a heap with signed strides | index arithmetic (nonlinear), loop invariants |
| C45, C46 | registrar maps, algorithm factory, nested configuration on the config model | map laws, view laws of C08 |
| C47, C48 | `SharedPointerCache` state machine; error-handle buffer as bounded memory | induction over histories; C48 second half is false: overflow witness for every message |
| C49, C50 | `Base64.c` on bytes | bit-level lemma per group, induction on length; C50 is false: exact result proved |
| C51, C52 | packed triangular storage | arithmetic on triangular numbers; C52 false for N ≥ 2: witness |
| C53–C56 | PLY, track and KRTD text formats over abstract number printing | round trip by induction; C53, C56 false: witnesses |
| C57 | enumerator as state machine | invariant relating iterator state to remaining cells |
| C58–C61 | exact-arithmetic geometry (Mathlib reals / matrices / quaternions) | `ring`, `field_simp`, `HasDerivAt`; C61 false with tangential terms: witness |
| C62, C74–C80 | path helpers of `SystemTools.cxx` over a `World` (environment, file system) | list lemmas; canonical form of `CollapseFullPath`; termination by fuel; C75 false with drive letters |
| C63, C96–C99 | default logger, logger manager and its threads | case analysis, induction on message lines; invariant over all interleavings; the stamp and race claims false: witnesses |
| C64–C68 | track set queries by offset | fold invariants, set laws; overflow of the offset is an outcome |
| C69 | timestamp conversion to and from config values | decimal print/parse inverse |
| C70–C72 | base64 buffer estimate, C string helpers as bounded memory | arithmetic; induction on the list |
| C73 | source locations of config values | invariant over histories |
| C81, C82, C83 | include resolution, protected keys, search directories | relation between path lists and the file found; C82 false: witness file |
| C84, C85 | writing configuration files | round trip through the parser model; C85 false: truncated file |
| C86–C89 | algorithm registrar and configuration of nested algorithms | map laws; induction over registrations; C87 false with colons |
| C90–C95 | PLY, track and KRTD files and stream operators | tokens/extraction lemmas; round trip; uninitialised reads as parameters |
| C100–C106 | rotations, similarities, homographies over ℝ | quaternion and matrix identities (`linear_combination`), `Complex.arg` for angles; absolute thresholds refute parts of C105, C106 |
| C107, C108 | camera projection and `look_at` | linearity of the rotation action, orthonormal frames |
| C109, C110 | essential and fundamental matrices for any SVD | trace inequalities for the closest matrix; Eckart–Young in dimension 3 by hand |
| C111 | latitude/longitude over doubles as NaN or extended reals | case analysis |
| C112 | Newton iteration of `undistort` with an exact solver | points on a ray stay on it; scalar Newton error recurrence with a second-order remainder bound, for every radial and rational model without tangential terms; false with tangential terms because of C61 |
| C113–C116 | argument preparation of the abstract algorithms | merge of sorted maps; invariant of the nested map; index lemmas |
| C117 | checks of `image_io` | path lemmas of C75/C62 |
| C118–C121 | regular expressions: two-pass compiler into program bytes, backtracking matcher over these bytes; grammar, matching relation and preference order as a separate specification (`Verif/Regex/Grammar`) | reference parser to trees = grammar; compiler correctness (emitted bytes = assembly of the tree, offsets patched in place); matcher = first element of the ordered list of ways to match |
| C122 | the object around it: members left over from earlier calls | invariant over all histories |
| C123 | the three patterns used by the configuration code | evaluation of the parser by the kernel, then lemmas on runs of a class |
| C124, C125 | all C calls on config blocks over the C++ model and the shared-pointer cache; addresses chosen by the allocator, reuse allowed | refinement of a table from handles to blocks; ownership by shared pointers and parents as reachability |
| C126 | file functions of the C interface with optional error handle | refuted (null dereference, overflow); successful paths by evaluation |
| C127 | image constructor from raw data | address arithmetic; refuted for negative plane steps |
| C128 | camera maps and track sets over the caches | counting references along histories |
| C129 | all C calls on algorithms: two caches, arbitrary plugins | refinement of a table from handles to (class, object) |
| C130 | check_impl_configuration | refuted for every plugin |
| C131–C136 | plugin manager: search path, directory listing, module table; file system may change between calls; dynamic linker by the contract of dlopen/dlclose; registration functions are arbitrary functions of the registrar | fold over attempts; invariants of the module table and of the use counts |
| C137 | double-checked locking of load_plugins_once as interleaved atomic steps | invariant by the position of the lock holder |
| C138, C139 | heaps of transformations / arrays with objects pointing into them (`Types/Sharing`); implicit copy and assignment copy the pointers | invariant "objects point to different cells" over histories without assignment (copy); refutations by a three-call history |
| C140 | timers as two clock readings and a flag | induction over the calls after the last start |
| C141, C142 | character buffers with unwritten bytes (`Util/GetPaths`) | last-slash loop = specification; C142 false: undefined behaviour for every path |
| C143 | image objects, containers, shared-pointer cache and explicit use counts of pixel buffers (`CApi/ImageHandles`) | refinement of a specification without releases; invariant: use count = number of handles viewing the buffer |
| C144 | interface objects with handle, parent and reference count; `__del__` destroys iff there is no parent (`Py/Objects`) | invariant: count = program references + live copies, handle count = live objects without parent; reachability by induction on age |
| C145 | MD5.c with its 64 unrolled operations as a table, 32-bit words, partial-block buffer and split bit counter (`Sys/MD5*`); RFC 1321 from its text, constants as integer parts of 2^32·abs(sin) over the reals | rotation of register roles by induction over the 64 operations; constants by the exponential series and the addition theorem in scaled integers; append invariant relating counter, registers and buffer to the message |
| C146 | the character loop of System.c with both growing buffers (`Sys/Command`); specification: command lines as arguments made of plain, escaped and quoted pieces | buffers removed by simulation; reading a line by induction over pieces and arguments; every string is a line by induction from the right |
| C147 | `Glob::PatternToRegex` and the compiled expression (`Regex/Glob`), on top of the regex model; specification: reading a pattern as stars, single characters, sets and literals, and what these match | translation to the grammar of regular expressions in both directions (induction over the pattern, inversion of the grammar), then C118/C119/C122 |
| C148 | `FindFiles`, `ProcessDirectory`, splitting of the expression (`Regex/GlobFiles`) over an abstract file system; specification: inductive relation `Found`, `Listed`, `Fits` (C147) | induction over the remaining parts; each search is total by C147; the leading path by induction over the expression |
| C149 | `RecurseDirectory`; specification: `Below`, and `Walk` (any sequence of directories and links) | well-founded recursion on (canonical paths not yet visited, remaining depth); completeness by cutting walks that use links of one directory twice |
| C150 | relative expressions; refuted by a working directory `/[a]`, proved when its name has no wildcard or backslash | C149's lemma on the absolute expression |
| C151 | CommandLineArguments: registration and Parse over a sorted map of options; specification `Reads` (groups of arguments, no helpers of the model) | induction on the argument list: the loop follows the unique reading |
| C152 | GetLastArgument, GetRemainingArguments (with the 64-bit counter); refuted after success with a separate value at the end | invariant of the loop on the index of the last argument |
| C153 | unknown arguments, flag values; refuted by `--output` with `--out=`, by `--inverse` with `--in`, and null flag values | counterexamples evaluated by the kernel; loop invariant |
| C154 | GenerateHelp with the fixed arrays and pointer reads (out-of-range access = no result); three refutations | induction on the text: pieces of a tidy text |
| C155 | the two loops over the map of groups; specification `listing`; refuted for alias chains | invariants of both loops, equality of sorted maps |
| C156 | GetHelp's loop with a turn counter; refuted for self reference | pigeonhole: a path longer than the number of options repeats |
| C157, C158 | `Verif/Sys/HashTable`, `HashMap`: buckets as lists of nodes with addresses; every member function; a machine over all operations; spec = partial function | invariant `Good` (nodes in the bucket of their key, addresses distinct, size right) and a representation relation, induction over histories |
| C159 | erase by key with the argument either a value or a reference into a node; reading a deleted key gives no result; refuted in general | induction on the chain |
| C160 | operator== on the bucket lists; refuted | congruence of maps over buckets |
| C161 | `Verif/Sys/HashMulti`: insert after the first equal node, equal_range, loops between iterators; spec = list of pairs up to permutation | every chain splits into before / equal / after for every key; kept by reversal, sublists, insertion |
| C162 | erase(first, last) with its bucket loops | position of both iterators located in the bucket list, uniqueness of addresses |
| C163 | default constructors of the modelled types | computation, identities over the reals |
| C164 | ReplaceString on C strings and std::strings, NUL included | relation "leftmost replaced, rest replaced", unique; counterexamples for NUL |
| C165 | the six case functions | pointwise characterisation, ASCII case tables by kernel computation |
| C166 | SplitString | induction on the text; counterexample for a leading separator |
| C167 | CropString | arithmetic on lengths |
| C168 | EscapeChars | induction; left inverse |
| C169 | StringStartsWith/EndsWith, FindLastString (strncmp loops) | induction |
| C170 | CountChar, RemoveChars(ButUpperHex), ReplaceChars, AppendStrings | induction, counts |
| C171 | MakeCidentifier | induction, ASCII tables |
| C172 | Strucmp | lexicographic relation, induction |
| C173 | GetLineFromStream over a model of istream::getline with the 1024 character buffer | induction over buffers |
| C174, C175 | ConvertToUnix/WindowsOutputPath | relation "runs squeezed", shell word reader as specification |
| C176 | FindName, FindFile, FindDirectory, FindProgram, FindLibrary over the file system of Verif/Sys/Paths | relation "first of" |
| C177 | SplitProgramFromArgs with its loop over blanks | invariant on tried blanks; non-termination for every fuel |
| C178 | IsSubDirectory | induction on the parents of a path |
| C179 | EstimateFormatLength on formats and va_args | induction on format items |
| C180 | the date macro conversions with their uninitialised buffers | case analysis on months and digits |
| C181 | setters as a list of calls; pretty_print with ctime as a parameter | induction on the calls from the end; unique reading of the printed text |
| C182 | the pattern compiled and matched by the model of the matcher | the first way to match of each part; search skips places before the run |
| C183 | the URL pattern, the parts as a structure | first way to match of each optional part; refuted for an @ in the path behind a port |
| C184 | file system as a tree; the block-wise comparison | induction on the remaining size |
| C185 | mkdir, access, stat on the tree; every call may be refused by a parameter | the tree only grows, by induction on the prefixes made; refuted for a trailing slash and for unreadable files |
| C186 | the recursion of RemoveADirectory on the tree, fuel for the depth | invariant 'only shrinks below the path', by induction on depth and entries; refuted for a link as the argument |
| C187 | unlink, open, write, chmod in turn, each may be refused; the open source is a path and its bytes | case analysis with the frame 'only the destination changes'; refuted when the source is its own destination |
| C188 | FilesDiffer, then CopyFileAlways | from C184 and C187; refuted for directories of size 0 |
| C189 | the recursion with fuel for the depth | induction on fuel, inner induction on the names with the invariant 'source unchanged, both sides compatible' |
| C190 | RelativePath over the models of CollapseFullPath and SplitString | the common prefix; ups cancel names in AppendComponents; refuted for ~ names and network roots |
| C191 | kwsysProcess setters, each allocation with a free answer | destination of each pipe follows the last call; induction over histories |
| C192 | same model, view of the configuration | every call follows the specification; uses C146 for verbatim lines |
| C193 | same model with a count of live blocks | live − owned never decreases; refuted for blank verbatim lines and failing strdup; equality otherwise |
| C194 | time arithmetic with rational seconds | exactness in microseconds; minimum of the deadlines; refuted: usec = 1000000 reaches select |
| C195 | table of executing objects with signal dispositions | refinement to a list; refuted: SIGTERM action saved over the SIGINT one |
| C196 | waiting object, kernel pipes and a schedule of events before every system call | ghost: delivered ++ unread = written, invariant over the loop |
| C197 | the same, with the handler split into its read and its write | invariant `Live`: an exited child below the scan position has a pending signal, an active handler or a byte in the pipe; the loop's fuel is bounded by a measure |
| C198 | the same, with wait statuses | invariant: codes = statuses of reaped children; all read ends closed implies all reaped |
| C199 | the same | invariant over sessions |
| C200 | the same, ghost counter of signals to reaped identifiers | refuted: second Kill; first Kill clean |
| C201 | the stat line of proc(5), strrchr and sscanf on its first 1024 bytes | for every command name; the last parenthesis is the closing one | 
| C202 | a table of processes with an adversarial schedule of forks and renames, /proc listings as an oracle, kwsysProcessKill by recursion on fuel | invariant: a dead process has only dead children, stopped processes have no new ones; induction on fuel, loop invariant over the listing; the fuel suffices because children are younger |
| C203 | kernel state (descriptor table with lowest-free allocation, children, mask, working directory) with arbitrary failures of every call; kwsysProcess_Execute and its helpers step by step | Hoare triples with a failure postcondition: compared with the initial table only descriptors held in variables are new; cleaning removes them; two refuted corners |
| C204 | the same; a child records the objects its descriptors refer to after dup2 and exec | invariant: list of (descriptor, object, close-on-exec) entries, everything else as before; forward symbolic execution of a success, induction on the commands |
| C205 | the same, recording the arguments of kwsysProcessKill and waitpid | from the triples of C203; a failing fork is the refuted corner |
| C206 | the same | the success postcondition of the triples of C203 |
| C207 | the same | from C204; the shared output is the refuted corner |
| C208–C210 | `from_pil` and `get_pil_image` on the image memory model of `Verif/Image`, with PIL's raw decoder (size, raw mode, stride) as a function on the buffer (`Py/Image`) | element-wise from the address arithmetic of C40; the round trip for grey images, refuted for RGB, non-packed layouts |
| C211, C212 | Python objects with handles over `CApi/ConfigHandles`; ctypes strings, NULL pointers and error handles; the allocator's usable size is a parameter (`Py/ConfigBlock`) | simulation with the C++ program (relation between objects, handles and blocks), one case per method, induction over the program |
| C213 | `usable` instantiated with glibc's chunk sizes | arithmetic on top of C212's fault list |
| C214 | Python objects, ctypes pointer cells, the C handles of C70-C74; specification with shared pointers only | forward simulation, relation `R` between cells and variables |
| C215 | the same | the relation also says which handles are live |
| C216 | the same | copies hold the cell of the original, an invariant |
| C217 | `lookup_entry` over a machine given by its files and system calls | from C219, C222 and the loop over the addresses |
| C218 | `ExtractValueFromCpuInfoFile` on the text of a list of fields | split lemmas (first occurrence of a word in a text), induction over the lines |
| C219, C220 | the counting loops | induction over the lines; the maximum of a list |
| C221 | the search for blank, flag, blank | infix of a padded list of words iff member, induction over the words |
| C222 | fgets pieces, sscanf formats | one line is one piece, the six fields are filled independently |
| C223 | the program maptk_track_features.py with the algorithms, the track file text and the file system as parameters | induction over the frames, against a relation `Tracked` over the jobs the list files denote |
| C224 | cli_main: exit codes | case analysis; refuted (None is falsy) |
| C225 | output file before and after | `process_spec`; refuted (file opened for writing first) |
| C226 | get_configuration / set_configuration, posixpath.normpath | normpath is idempotent (induction over the components), configuration values are found again; refuted for paths with blanks at the ends |
| C227 | invert_masks | the settings are never looked at (refuted) |
| C228 | path translations, tree with links | induction over walks through the tree: a table whose entries lead to the same directory keeps what a path leads to; false with backslashes (refuted) |
| C229 | translations, CollapseFullPath | tidy tables: canonical and idempotent; PWD with "/./" breaks both (refuted) |
| C230 | ClassInitialize | PWD gets shorter in each round; PWD=/:/ loops (refuted) |
| C231 | PutEnv, UnPutEnv, GetEnv | environ as list of strings, glibc primitives; a call changes only its own name; induction over the history |
| C232 | three variants of kwsysUnPutEnv | same filter on environ for texts with a name; false for empty names (refuted) |
| C233 | kwsysEnvCompare | on texts with '=' it is the lexicographic order of "name="; false in general (refuted) |
| C234 | kwsysEnv without setenv | invariant over blocks: own entries are the first of their name and not freed; false for empty names (refuted) |
| C235 | SystemTools::Split as rounds over find_first_of | inductive relation text/lines/terminated, induction over rounds; uniqueness of the relation |
| C236 | FileHasSignature over file contents, fseek | case analysis on the offset; false for negative offsets (refuted) |
| C237 | DetectFileType, counts and quotient as rationals | counting relation; false at 0x7F and at the threshold (refuted) |
| C238 | LocateFileInDir with its loop | loop invariant over the components of the name; false when a directory is missing (refuted), exact list of places proved |
| C239 | SplitProgramPath, GetProgramPath | path lemmas of Sys.PathsProps; false in the root directory (refuted) |
| C240 | FindProgramPath, null pointers as none | case analysis over the three places; undefined for null exeName (refuted) |
| C241 | FileTimeCompare | sign of the difference in nanoseconds, order laws |
| C242 | fgets, sscanf and the attempts of wai_getModulePath (`Util/ModulePath`) | scanning lemmas for numerals in kernel format, induction over the lines; false for blanks and adjacent mappings (refuted) |
| C243 | _search_up_directory with os.path (`Py/FindLibrary`) | induction over the components of the path; false when a library directory lacks the library (refuted) |
| C244 | the regular expression of the library name | characterisation of the accepted names; false for other files (refuted) |
| C245, C246 | _find_vital_library_path with its cache | first success in the list of directories; induction over histories; false without LD_LIBRARY_PATH (refuted) |
| C247 | auto_ptr members as operations on a memory of objects and variables | simulation between the memory and an ownership map, induction over histories |
| C248 | objects behind C handles of tracks, track sets, cameras and camera maps: heap with addresses and shared-pointer use counts, two SharedPointerCaches; allocator may reuse addresses; temporaries within a call left out | invariant relating use counts to handles and set membership (with extra pointers during a call), simulation, induction over histories |
| C249 | constructors of feature_ and landmark_ from the base class, over abstract number types | false of the code (the covariance is never assigned: refuted); other attributes and round trips proved |
| C250 | setters of feature_ and landmark_ | induction over histories |
| C251 | simple_camera constructors, clone, set_intrinsics over a heap of intrinsics objects | frame lemma per call, induction over histories |
| C252 | constructor of the logger manager, load_factory over a world of libraries | case analysis; false when the entry function returns null (refuted) |
| C253 | get_logger, set_logger_factory, the raw factory pointer of a logger | simulation by induction over histories; false when a replaced factory is destroyed (refuted) |
| C254 | constructors and what() of all exceptions of vital/exceptions and config_block_exception.cxx; messages as texts, what() as a C string | case analysis over the classes, occurrence of each argument; NUL cut and the empty config_block_io_exception shown |
| C255 | as C254 | messages split at the first closing mark, the sizes from the end; counterexample with a quote in a path |
| C256 | as C254 | leading phrases pairwise clash (finite table of phrases, checked completely), set/unset by their endings; twins shown to coincide |
| C257 | camera_map.py over the model of camera_map.cxx (C128); c_uint conversion as the low 32 bits | via C128; refuted with frames 0 and 2^32 |
| C258 | SetPermissions as a small-step program of any number of threads over the process umask | invariant over schedules; refuted with two overlapping calls |
| C259 | Touch over names with permissions and times; access(R_OK), fopen "a+b", utimensat | case analysis; refuted with an unreadable file |
| C260 | objects of float and double classes behind the base class; numbers and arithmetic abstract | induction over sequences of conversions |
| C261 | the adapter over a model of log4cxx (own level or that of the nearest ancestor) | induction over calls; refuted with a logger whose level was never set |
| C262 | mbstowcs/wcstombs over an abstract codec, buffers as lists, size_t with wrap-around | case analysis on the codec's answer |
| C263 | CommandLineArguments with a heap of blocks; free of a free block is undefined | ownership invariant, refinement of a heap-less specification; refuted with an argument without encoding |
| C264 | the counter and the pointer to the table as a state machine over load, unload and use | invariant; static objects as a LIFO instance |
| C265 | GetTerminalWidth over a full model of strtol with base 0 | case analysis; refuted with a leading zero |
| C266 | symlink/readlink with the system's limits; buffers by take | invariant over histories |
| C267 | getcwd with a buffer of 2048, CollapseFullPath of the path model | via canonical paths (C75); refuted by depth and by a backslash |
| C268 | Python statements over the C functions over the plugin manager model (C131 - C137), blocks with `usable` bytes | induction over the program; the overflow is decided name by name, glibc's block sizes by arithmetic |
| C269 | `main` of plugin_explorer over the models of the command line parser, the manager and tokenize | grammar of command lines (`Line`), C151 for parsing, details by induction over the names; refuted by a name with two colons |
| C270 | Directory object over a stream of names that may end in an error | all histories: Load forgets the past; refuted by a read error |
| C271 | Python objects, C handle caches (C47) and algorithm calls with arbitrary answers | invariant between caches and the live Python objects, by induction over the program |
| C272 | hash functions as in the code over bytes and 64-bit numbers | closed form in base 5 by induction; integers by arithmetic; maps with string keys through C157 |
| C273 | the same with char* keys: hash of the characters, equality of the addresses | C157 on addresses; refuted by two pointers to the same text |
| C274 | Python from_file and read over the C handles (C126, C211) and the C++ reader (C29) | in any state, by cases on the reader's outcome; refuted by a read-only entry |
| C275 | Python write over write_config_file (C84, C85) | in any state; refuted by a file that cannot be opened |
| C276 | Python as_string: temporary file, write, read, remove | in any state; refuted by an empty block, which leaves the file and the descriptor |
| C277 | Python Track, TrackSet, Camera over the C handle caches and the file functions of C55/C56 | refinement: program state against Python values; invariant on the caches (Rep), induction over statements; refuted for allocators without a spare byte |
| C278 | write_tracks_file then from_file | refuted by a set of a track made in Python (no states, nothing is written); proved for tracks with states, and C278_lost: every Python-made set comes back empty |
| C279 | GetHostMemoryTotal/Available/Used, GetProcMemoryAvailable over the files of /proc, environment and rlimits | line reader against lines of the file, least of the limits; refuted by a limit of 2^63 bytes (cast before the division) |
| C280 | GetProcMemoryUsed (substring search in /proc/self/status) | refuted by a process called `VmRSS: 7`; proved for names without that text |
| C281 | SetStackTraceOnError and its handler over the table of signal actions | invariant on the saved actions, induction over all histories |
| C282 | GetCPUDescription (the loop that replaces pairs of blanks) | the loop against a one-pass function; termination by length |
| C283 | Identity of the processor from /proc/cpuinfo, table of makers | search in the buffer against the fields of the file (as C218) |
| C284 | Python images and containers over the C handles | simulation: J relation of objects, C handles and pictures (on C-side refinement of the image handles); refuted for dimensions ≥ 2^31 (C ints) |
| C285 | Interrupted write_config_file: every crash point | text cut at any byte, read by the parser specification (C20): prefix of the entries, last value cut; refuted by a cut value |
| C286 | Interrupted write_track_file: every crash point | text cut at any byte; the complete lines by C93/C55, the rest is at most one more observation; refuted by a cut number |
| C287 | Interrupted write_ply_file: every crash point | text cut at any byte; the complete lines by C53/C54, a cut header line declares nothing, the rest is at most one more mapPut; refuted by a cut number |
| C288 | Interrupted write_krtd_file: every crash point | text cut at any byte; numbers before the cut by C56, a cut number consumes the rest (law `Cuts` of the number format, proved for integers), so anything after it throws; refuted by a cut translation |

Properties the code violates are kept in `properties.jsonl` as the user expects them; the manifest lists a
refutation theorem (`…_refuted`) and a `…_partial` theorem with the part that does hold.
