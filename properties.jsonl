{"id": "C01", "title": "set_value then get_value returns the stored (blank-trimmed) value", "statement": "After set_value(key, v) returns normally on a config block or on any (possibly nested) sub-block view of it, get_value<string>(key) on the same object returns v with leading and trailing white space removed, and the value of every other fully qualified key is unchanged.", "quantifier": "every heap of config blocks and views reachable by any history of API calls, every key, value and description", "why_tests_cant": "The number of keys, values, view nestings and prior histories is unbounded; a test fixes one.", "anchors": ["vital/config/config_block.cxx: config_block::i_set_value, i_get_value, find_value, trim", "vital/config/config_block.h: get_value, set_value"]}
{"id": "C02", "title": "A config block behaves like an abstract map", "statement": "For every sequence of set_value / unset_value / mark_read_only calls on a root block, get_value, has_value and get_description answer exactly as a plain finite map from keys to (value, description) that ignores refused calls.", "quantifier": "every finite sequence of operations and every key", "why_tests_cant": "Requires agreement after every one of infinitely many histories.", "anchors": ["vital/config/config_block.cxx: i_set_value, unset_value, mark_read_only, has_value, get_description"]}
{"id": "C03", "title": "A read-only key can never be changed or removed again", "statement": "Once mark_read_only(key) has been called on the owning block, no later set_value, unset_value or merge_config through that block or through any view of it changes or removes the value of key; set_value and unset_value on it throw and leave every value as it was.", "quantifier": "every reachable heap, every later history, every view nesting depth", "why_tests_cant": "\"Never again\" ranges over all future histories.", "anchors": ["vital/config/config_block.cxx: is_read_only, mark_read_only, i_set_value, unset_value, merge_config"]}
{"id": "C04", "title": "Marking read-only through a view", "statement": "A view shares the read-only attribute with the block it views: after view->mark_read_only(k), set_value(k, ..) through that view is refused.", "quantifier": "every view of every reachable block, every key", "why_tests_cant": "Quantifies over all views and keys; the only existing test checks one root block.", "anchors": ["vital/config/config_block.cxx: is_read_only, mark_read_only, i_set_value", "vital/config/config_block.h: subblock_view"]}
{"id": "C05", "title": "unset_value removes exactly one key", "statement": "unset_value(key) on an existing writable key makes has_value(key) false, get_value(key) and get_description(key) throw no_such_configuration_value, and leaves all other keys unchanged; on a missing key it throws no_such_configuration_value and changes nothing.", "quantifier": "every reachable heap, block or view, and key", "why_tests_cant": "Framing over all other keys and all histories.", "anchors": ["vital/config/config_block.cxx: unset_value, get_description"]}
{"id": "C06", "title": "Values and descriptions never get out of step", "statement": "In every reachable state a key has a description exactly when it has a value, so get_description succeeds iff has_value, and unset_value never erases an invalid iterator (no undefined behaviour).", "quantifier": "every reachable heap and every key", "why_tests_cant": "An invariant over all operation histories.", "anchors": ["vital/config/config_block.cxx: unset_value (m_descr_store.erase(j)), i_set_value"]}
{"id": "C07", "title": "Description retention rule", "statement": "set_value with a non-empty description replaces the description; set_value with an empty one keeps an existing description and otherwise stores an empty one.", "quantifier": "every reachable heap, key, value and description", "why_tests_cant": "Depends on arbitrary earlier history of the key.", "anchors": ["vital/config/config_block.cxx: i_set_value"]}
{"id": "C08", "title": "A view is an alias of its parent under a key prefix", "statement": "For a view named n of block b (views of views included): has_value, get_value, get_description, set_value and unset_value of k through the view have the same result and the same effect on every block as the same call with n:k on b.", "quantifier": "every reachable heap, every view depth, every key", "why_tests_cant": "Unbounded nesting depth and histories.", "anchors": ["vital/config/config_block.cxx: subblock_view, has_value, i_get_value, get_description, i_set_value, unset_value"]}
{"id": "C09", "title": "subblock is a detached exact copy", "statement": "subblock(n) of a root block holds for every k the value and description of n:k (plus the _global: entries), and later changes to either block are never visible through the other.", "quantifier": "every reachable root block, name, and every later history on either side", "why_tests_cant": "Independence is a statement about all later histories.", "anchors": ["vital/config/config_block.cxx: subblock, does_not_begin_with, strip_block_name"]}
{"id": "C10", "title": "available_values lists exactly the readable keys", "statement": "On a root block available_values() is strictly sorted, duplicate free and contains k iff has_value(k). On a view it contains every k with has_value(k).", "quantifier": "every reachable heap and block", "why_tests_cant": "All key sets.", "anchors": ["vital/config/config_block.cxx: available_values, does_not_begin_with, strip_block_name"]}
{"id": "C11", "title": "merge_config overrides and its failure point is exact", "statement": "merge_config(other) without read-only conflicts gives every key of other its value there, keeps all other keys, never copies read-only attributes; on a read-only conflict it throws and exactly the keys of other that precede the first conflicting key (in key order) have been merged.", "quantifier": "every pair of reachable blocks", "why_tests_cant": "All pairs of key sets and read-only sets.", "anchors": ["vital/config/config_block.cxx: merge_config"]}
{"id": "C12", "title": "get_value with default never throws", "statement": "get_value(key, def) returns the converted value when the key exists and converts, and def otherwise; it never raises.", "quantifier": "every reachable heap, key, default, and conversion function", "why_tests_cant": "All states and all conversions.", "anchors": ["vital/config/config_block.h: get_value(key, def)"]}
{"id": "C13", "title": "Boolean conversion is total on its table and round-trips", "statement": "get_value<bool> succeeds exactly on the case-insensitive spellings of true/yes/1/false/no/0, with the right truth value; storing a bool with either set_value overload and reading it as bool returns it.", "quantifier": "every string and both booleans", "why_tests_cant": "All strings.", "anchors": ["vital/config/config_block.cxx: config_block_get_value_cast<bool>", "vital/config/config_block.h: set_value<bool>"]}
{"id": "C14", "title": "Integer conversion round-trips", "statement": "set_value(key, n) then get_value<int>(key) returns n for every int n, and values out of range or with no leading number make get_value<int> throw.", "quantifier": "every integer in range; every string for the failing side", "why_tests_cant": "2^32 values and all strings.", "anchors": ["vital/config/config_block.h: config_block_get_value_cast_default, config_block_set_value_cast_default"]}
{"id": "C15", "title": "Text without tokens is left alone by token expansion", "statement": "expand_token(s) = s whenever s contains no $TYPE{name} occurrence with a registered TYPE.", "quantifier": "every string, every table of token types", "why_tests_cant": "All strings.", "anchors": ["vital/config/token_expander.cxx: expand_token"]}
{"id": "C16", "title": "Token expansion is one left-to-right pass", "statement": "expand_token replaces the non-overlapping left-to-right occurrences of $TYPE{name} with registered TYPE by their looked-up text, copies everything else verbatim, and never re-scans replacement text; it terminates on every string.", "quantifier": "every string and every lookup function", "why_tests_cant": "All strings and tables.", "anchors": ["vital/config/token_expander.cxx: expand_token"]}
{"id": "C17", "title": "Unknown token types are kept, unknown names vanish", "statement": "An occurrence $TYPE{name} with unregistered TYPE is copied verbatim; with registered TYPE but unknown name it is replaced by the empty string.", "quantifier": "every type, name and surrounding text", "why_tests_cant": "All strings.", "anchors": ["vital/config/token_expander.cxx: expand_token", "vital/config/token_type_symtab.cxx: lookup_entry", "token_type_env.cxx", "token_type_config.cxx", "token_type_sysenv.cxx"]}
{"id": "C18", "title": "The LOCAL symbol table is a map", "statement": "After any sequence of add_entry and remove_entry, lookup_entry(n) succeeds iff n's last operation was an add and then yields that value.", "quantifier": "every operation sequence and name", "why_tests_cant": "All histories.", "anchors": ["vital/config/token_type_symtab.cxx"]}
{"id": "C19", "title": "Comments, blank lines and surrounding blanks do not matter", "statement": "Inserting blank or comment-only lines anywhere, or adding leading/trailing blanks or a trailing comment to any line, changes no value, description, read-only mark or error status of the parsed config.", "quantifier": "every config file text and insertion", "why_tests_cant": "All files.", "anchors": ["vital/config/config_parser.cxx: get_line"]}
{"id": "C20", "title": "Block nesting qualifies keys", "statement": "An entry inside nested block directives b1..bn gets key b1:..:bn:key; endblock restores the previous prefix; endblock without block and blocks left open at the end of the main file make parse_config throw.", "quantifier": "every properly or improperly nested file, any depth", "why_tests_cant": "Unbounded nesting.", "anchors": ["vital/config/config_parser.cxx: process_file"]}
{"id": "C21", "title": "A syntax error is always reported", "statement": "If any line read by a fresh parser fails to parse, parse_config throws (it never returns normally), while well-formed entries of other lines are still entered in the config.", "quantifier": "every file contents and file system", "why_tests_cant": "All files.", "anchors": ["vital/config/config_parser.cxx: process_file, get_token"]}
{"id": "C22", "title": "[RO] protects an entry from later definitions in the same parse", "statement": "After key[RO] = v has been parsed, any later definition of the same full key in the same or an included file makes parse_config throw and the value stays v.", "quantifier": "every file set", "why_tests_cant": "All files.", "anchors": ["vital/config/config_parser.cxx: process_file"]}
{"id": "C23", "title": "The last definition wins", "statement": "For a parse that returns normally the value of each key is the expansion of its last definition in reading order.", "quantifier": "every file set", "why_tests_cant": "All files.", "anchors": ["vital/config/config_parser.cxx: process_file"]}
{"id": "C24", "title": "$CONFIG and $LOCAL see exactly the definitions read before", "statement": "$CONFIG{k} (resp. $LOCAL{k}) in a value expands to the value most recently defined before that line, or to nothing.", "quantifier": "every file set", "why_tests_cant": "All files.", "anchors": ["vital/config/config_parser.cxx: process_file", "vital/config/token_type_config.cxx", "token_type_symtab.cxx"]}
{"id": "C25", "title": "Includes terminate on acyclic include graphs and diverge on cycles", "statement": "If the include relation reachable from a file is well-founded parsing terminates; a file whose first directive includes itself is parsed for ever (no number of steps suffices).", "quantifier": "every file system", "why_tests_cant": "Non-termination cannot be observed by a test.", "anchors": ["vital/config/config_parser.cxx: process_file, resolve_file_name"]}
{"id": "C26", "title": "write_config output reads back as the same config", "statement": "Writing a config block whose keys are parser words and whose values are single line, comment free and token free, and parsing the text with a fresh parser yields the same keys and values.", "quantifier": "every such config block, all descriptions and locations without line breaks in file names", "why_tests_cant": "All blocks.", "anchors": ["vital/config/config_block_io.cxx: write_config, write_cb_comment", "vital/config/config_parser.cxx"]}
{"id": "C27", "title": "write_config refuses empty blocks and is deterministic", "statement": "write_config throws iff the block has no values; otherwise the entries appear in strictly increasing key order, each exactly once.", "quantifier": "every root block", "why_tests_cant": "All blocks.", "anchors": ["vital/config/config_block_io.cxx: write_config"]}
{"id": "C28", "title": "Description comments are safe comments", "statement": "Every line written for a description starts with #, so no description text can ever be parsed as configuration; lines are at most 80 characters unless they consist of # and one over-long word; no line ends in a space; the words of the description appear in order.", "quantifier": "every description string", "why_tests_cant": "All strings.", "anchors": ["vital/config/config_block_io.cxx: write_cb_comment", "vital/util/tokenize.h"]}
{"id": "C29", "title": "Search-path precedence of read_config_file", "statement": "With merge, the resulting value of a key is the one from the earliest directory of the search path whose file defines it; without merge only the first existing file is read; absolute names ignore the search path; nothing found throws.", "quantifier": "every search path, file system content", "why_tests_cant": "All search paths and contents.", "anchors": ["vital/config/config_block_io.cxx: read_config_file, config_file_paths, application_paths"]}
{"id": "C30", "title": "Parser reuse after a failure", "statement": "After parse_config has thrown, calling parse_config with another file on the same parser reports syntax errors of that file.", "quantifier": "every parser history", "why_tests_cant": "All histories.", "anchors": ["vital/config/config_parser.cxx: process_file (m_file_count, m_parse_error, m_block_stack)"]}
{"id": "C31", "title": "Source locations are those of the defining line", "statement": "After a successful parse get_location(key) yields the file and 1-based line number of the last definition of key; keys never defined by the parser have no location.", "quantifier": "every file set", "why_tests_cant": "All files.", "anchors": ["vital/config/config_parser.cxx: process_file", "vital/config/config_block.cxx: set_location, get_location"]}
{"id": "C32", "title": "tokenize splits losslessly", "statement": "With trimEmpty=false joining the tokens with the (single) delimiter gives back the string, no token contains a delimiter, and there is one token more than delimiters; with trimEmpty=true exactly the non-empty tokens are kept; earlier container content is preserved.", "quantifier": "every string, delimiter set and initial container", "why_tests_cant": "All strings.", "anchors": ["vital/util/tokenize.h: tokenize"]}
{"id": "C33", "title": "Track states stay strictly ordered by frame", "statement": "In every track built with the constructors and any sequence of append(state)/append(track) calls, frame numbers strictly increase; a refused append returns false and leaves the track unchanged.", "quantifier": "every sequence of appends", "why_tests_cant": "All histories.", "anchors": ["vital/types/track.cxx: track::append"]}
{"id": "C34", "title": "track::find is exact", "statement": "find(f) returns the state with frame f if there is one and end() otherwise.", "quantifier": "every reachable track and every frame number", "why_tests_cant": "All tracks.", "anchors": ["vital/types/track.cxx: find, first_frame, last_frame"]}
{"id": "C35", "title": "active_tracks / inactive_tracks partition the set", "statement": "For every offset each track of the set is in exactly one of active_tracks(offset) and inactive_tracks(offset), active ones being exactly those having a state on the designated frame; order is preserved.", "quantifier": "every track set and offset", "why_tests_cant": "All sets.", "anchors": ["vital/types/track_set.cxx: active_tracks, inactive_tracks, offset_to_frame"]}
{"id": "C36", "title": "track_set::first_frame is the smallest frame", "statement": "first_frame() returns the smallest frame number covered by the tracks.", "quantifier": "every non-empty track set", "why_tests_cant": "All sets.", "anchors": ["vital/types/track_set.cxx: first_frame"]}
{"id": "C37", "title": "track_set::last_frame is the largest frame", "statement": "last_frame() returns the largest frame number covered by the tracks (non-negative frames).", "quantifier": "every track set", "why_tests_cant": "All sets.", "anchors": ["vital/types/track_set.cxx: last_frame"]}
{"id": "C38", "title": "Timestamp comparisons are coherent", "statement": "At most one of a<b, a==b, a>b holds; a<b iff b>a; timestamps of different domains or without common data compare false under all four operators; != is the negation of == exactly on comparable ones.", "quantifier": "every pair of timestamps", "why_tests_cant": "All pairs of 64 bit values.", "anchors": ["vital/types/timestamp.cxx: operator<, operator>, operator==, operator!="]}
{"id": "C39", "title": "Timestamp order is transitive", "statement": "a<b and b<c imply a<c.", "quantifier": "every triple of timestamps", "why_tests_cant": "All triples.", "anchors": ["vital/types/timestamp.cxx: operator<"]}
{"id": "C40", "title": "Distinct pixels have distinct addresses inside the allocation", "statement": "For an image built by the allocating constructor or resized by set_size, (i,j,k) with i<width, j<height, k<depth are mapped injectively to bytes inside the allocated block.", "quantifier": "every size and interleave flag, any history of set_size", "why_tests_cant": "All sizes.", "anchors": ["vital/types/image.cxx: image::image, set_size", "vital/types/image.h: operator()"]}
{"id": "C41", "title": "Pixel access is bounds checked", "statement": "at(i,j), operator()(i,j) and operator()(i,j,k) throw out_of_range exactly when an index is not below the corresponding dimension, and never read outside the image's pixels.", "quantifier": "every image view and index", "why_tests_cant": "All indices.", "anchors": ["vital/types/image.h: at, operator()"]}
{"id": "C42", "title": "copy_from makes a deep equal copy", "statement": "After a.copy_from(b) onto an image with its own memory, equal_content(a,b) holds, b is unchanged, and later writes to either do not affect the other.", "quantifier": "every pair of images with any layouts", "why_tests_cant": "All sizes, strides and contents.", "anchors": ["vital/types/image.cxx: copy_from, set_size, equal_content"]}
{"id": "C43", "title": "equal_content is pixelwise equality", "statement": "equal_content(a,b) is true iff the dimensions agree and all pixels agree, regardless of memory layout; it is an equivalence relation.", "quantifier": "every pair of images", "why_tests_cant": "All contents.", "anchors": ["vital/types/image.cxx: equal_content"]}
{"id": "C44", "title": "transform_image applies the function once per pixel", "statement": "transform_image(img, op) replaces each pixel p by op(p) exactly once for images with non-overlapping pixels and touches no other byte, whatever the step sizes.", "quantifier": "every image view with injective addressing, every op", "why_tests_cant": "All layouts.", "anchors": ["vital/types/image.cxx: transform_image"]}
{"id": "C45", "title": "Registered algorithms can be found and created", "statement": "After register_instance(impl) succeeds, has_impl_name, registered_names, create by type and implementation name all find it (the latest registration of a name wins), and create returns a clone, never the registered instance.", "quantifier": "every registration history", "why_tests_cant": "All histories.", "anchors": ["vital/registrar.h", "vital/algo/algorithm.cxx", "vital/algo/algorithm.txx"]}
{"id": "C46", "title": "Nested algorithm configuration round-trips", "statement": "get_nested_algo_configuration followed by set_nested_algo_configuration with the same name recreates an instance of the same implementation and hands it a view that holds the configuration of the original; check_nested_algo_configuration never dereferences a missing registration.", "quantifier": "every registry, config block, name and algorithm", "why_tests_cant": "All registries and configs.", "anchors": ["vital/algo/algorithm.cxx: get_nested_algo_configuration, set_nested_algo_configuration, check_nested_algo_configuration"]}
{"id": "C47", "title": "The C shared-pointer cache releases an object exactly when stores and erases balance", "statement": "After any sequence of store and erase calls, get(p) succeeds iff the number of effective stores of p exceeds the number of erases since it was last absent; other pointers are unaffected.", "quantifier": "every operation sequence", "why_tests_cant": "All histories.", "anchors": ["vital/bindings/c/helpers/c_utils.h: SharedPointerCache"]}
{"id": "C48", "title": "C error handles receive the whole message", "statement": "After an exception in a wrapped call the error handle has code -1 and the message; the write stays within the allocated buffer.", "quantifier": "every message", "why_tests_cant": "All messages.", "anchors": ["vital/bindings/c/helpers/c_utils.h: POPULATE_EH, STANDARD_CATCH"]}
{"id": "C49", "title": "Base64 decode inverts encode", "statement": "Decoding the encoding of any byte string with its known length returns it; encoded length is 4*ceil(n/3) and consists of alphabet characters and padding.", "quantifier": "every byte string", "why_tests_cant": "All byte strings.", "anchors": ["vital/kwiversys/Base64.c"]}
{"id": "C50", "title": "Base64 mark_end lets the decoder find the end", "statement": "Encoding with mark_end and decoding with the encoded length as limit returns exactly the original bytes.", "quantifier": "every byte string", "why_tests_cant": "All byte strings.", "anchors": ["vital/kwiversys/Base64.c: kwsysBase64_Encode (mark_end), kwsysBase64_Decode3, kwsysBase64_Decode"]}
{"id": "C51", "title": "Packed covariance storage is a bijection", "statement": "vector_index is symmetric, stays below N(N+1)/2 and is injective on unordered index pairs; matrix -> covariance -> matrix yields the symmetric part; covariance -> matrix -> covariance is the identity.", "quantifier": "every N and matrix", "why_tests_cant": "All N and matrices.", "anchors": ["vital/types/covariance.h: vector_index, covariance_(Matrix), operator Matrix"]}
{"id": "C52", "title": "Converting covariances between scalar types keeps all entries", "statement": "covariance_<N,T>(covariance_<N,U>) converts every stored entry.", "quantifier": "every N and covariance", "why_tests_cant": "All N.", "anchors": ["vital/types/covariance.h: converting constructor"]}
{"id": "C53", "title": "PLY reading stops after the declared number of vertices", "statement": "read_ply_file reads at most the declared number of vertex lines.", "quantifier": "every PLY text", "why_tests_cant": "All files.", "anchors": ["vital/io/landmark_map_io.cxx: read_ply_file"]}
{"id": "C54", "title": "PLY write/read round trip", "statement": "Reading back a written landmark map yields the same ids with location, normal, colour and observation count (up to number formatting).", "quantifier": "every non-empty landmark map", "why_tests_cant": "All maps.", "anchors": ["vital/io/landmark_map_io.cxx: write_ply_file, read_ply_file"]}
{"id": "C55", "title": "Track file write/read round trip", "statement": "Reading back a written track set with distinct track ids and no empty tracks yields the same tracks in order (descriptors dropped).", "quantifier": "every such track set", "why_tests_cant": "All sets.", "anchors": ["vital/io/track_set_io.cxx: write_track_file, read_track_file"]}
{"id": "C56", "title": "Camera files keep lens distortion", "statement": "Reading a written KRTD file returns the distortion coefficients that were written.", "quantifier": "every camera", "why_tests_cant": "All cameras.", "anchors": ["vital/types/camera.cxx: operator<<, operator>>", "vital/io/eigen_io.h: operator>>", "vital/io/camera_io.cxx"]}
{"id": "C57", "title": "enumerate visits each stored cell exactly once in order", "statement": "Iterating enumerate(m) from begin to end visits exactly the stored cells of m in storage order and terminates.", "quantifier": "every sparse matrix", "why_tests_cant": "All matrices.", "anchors": ["vital/util/enumerate_matrix.h"]}
{"id": "C58", "title": "Similarity transforms form a group acting on points", "statement": "(A*B)*x = A*(B*x), A.inverse() undoes A (non-zero scale) and A*A.inverse() is the identity, composition is associative, and the 4x4 matrix of a similarity does to homogeneous points what the similarity does, the matrix of a product being the product of the matrices (exact arithmetic; rotations hold unit quaternions).", "quantifier": "every similarity and point", "why_tests_cant": "All real parameters.", "anchors": ["vital/types/similarity.h: inverse", "vital/types/similarity.cxx: operator*"]}
{"id": "C59", "title": "Frame-to-frame homographies compose by frame ids", "statement": "a*b throws unless b maps into a's source frame; the product maps from b's source to a's target with the product matrix; inverse swaps the frames and inverts the matrix.", "quantifier": "every pair", "why_tests_cant": "All pairs.", "anchors": ["vital/types/homography_f2f.cxx"]}
{"id": "C60", "title": "Camera intrinsics unmap inverts map", "statement": "Without distortion, unmap(map(p)) = p and map(unmap(p)) = p for non-zero focal length and aspect ratio; K-matrix round trip through the matrix constructor is exact (exact arithmetic).", "quantifier": "every intrinsics and point", "why_tests_cant": "All real parameters.", "anchors": ["vital/types/camera_intrinsics.cxx: map, unmap, as_matrix"]}
{"id": "C61", "title": "The distortion Jacobian used for undistortion is the derivative", "statement": "distortion_jacobian(pt,d) is the Jacobian matrix of distort at pt.", "quantifier": "every point and coefficient vector", "why_tests_cant": "All real parameters.", "anchors": ["vital/types/camera_intrinsics.cxx: distortion_jacobian, radial_distortion_deriv"]}
{"id": "C62", "title": "Path splitting helpers are consistent", "statement": "For slash-normal paths directory part + \"/\" + name part reconstruct the path; name part contains no slash; extension + stem reconstruct the name.", "quantifier": "every path", "why_tests_cant": "All strings.", "anchors": ["vital/kwiversys/SystemTools.cxx: GetFilenamePath, GetFilenameName, GetFilenameLastExtension, GetFilenameWithoutLastExtension"]}
{"id": "C63", "title": "Logger level gating", "statement": "A message of level L is emitted exactly when the logger's level is not above L; each line of a multi-line message is emitted with its own prefix; get_logger(name) returns the same logger for the same name.", "quantifier": "every level, message and call history", "why_tests_cant": "All messages and histories.", "anchors": ["vital/logger/default_logger.cxx"]}
{"id": "C64", "title": "new_tracks / terminated_tracks are exact", "statement": "For every offset new_tracks(offset) (terminated_tracks(offset)) returns, in order, exactly the tracks whose first (last) state is on the designated frame.", "quantifier": "all track sets built through the API and all offsets", "why_tests_cant": "ranges over all track sets and offsets; the failing case (an empty track at frame 0) is easily missed by examples", "anchors": ["vital/types/track_set.cxx: new_tracks, terminated_tracks, offset_to_frame"]}
{"id": "C65", "title": "last_frame_features / last_frame_descriptors are safe and exact", "statement": "last_frame_features() and last_frame_descriptors() return, in track order, the data of the states on the last frame and never touch memory outside a track history.", "quantifier": "all track sets built through the API", "why_tests_cant": "the invalid access happens only for sets holding an empty track while the last frame is 0", "anchors": ["vital/types/track_set.cxx: last_frame_features, last_frame_descriptors"]}
{"id": "C66", "title": "frame_features / frame_descriptors are exact", "statement": "frame_features(offset) / frame_descriptors(offset) return, in track order, the data of exactly the states on the designated frame.", "quantifier": "all track sets built through the API and all offsets", "why_tests_cant": "ranges over all track sets and offsets; rests on binary search over every history", "anchors": ["vital/types/track_set.cxx: frame_features, frame_descriptors"]}
{"id": "C67", "title": "percentage_tracked is a symmetric fraction", "statement": "percentage_tracked(o1,o2) is the number of tracks on both frames over the number of tracks on either frame, so lies in [0,1] and is symmetric.", "quantifier": "all track sets built through the API and all pairs of offsets", "why_tests_cant": "universally quantified counting statement", "anchors": ["vital/types/track_set.cxx: percentage_tracked"]}
{"id": "C68", "title": "Track set id queries are exact", "statement": "all_frame_ids / all_track_ids are exactly the sets of frame numbers / ids of the tracks, and get_track(id) returns the first track with that id or null if there is none.", "quantifier": "all track sets and ids", "why_tests_cant": "ranges over all track sets", "anchors": ["vital/types/track_set.cxx: all_frame_ids, all_track_ids, get_track", "vital/types/track.cxx: all_frame_ids"]}
{"id": "C69", "title": "Timestamps survive a config block", "statement": "A timestamp stored in a config block with set_value and read with get_value<timestamp> is the same timestamp, and reading a text that is no timestamp is not undefined behaviour.", "quantifier": "all timestamps with 64-bit time and frame; all texts", "why_tests_cant": "ranges over all timestamps and texts; the indeterminate read is invisible to most tests", "anchors": ["vital/types/timestamp_config.h: config_block_get_value_cast, config_block_set_value_cast"]}
{"id": "C70", "title": "Base64 output buffer estimate", "statement": "An output buffer of length*1.5 bytes, which the documentation of the encoder calls a safe estimate, is large enough for every input, with and without end mark.", "quantifier": "all byte strings and both settings of mark_end", "why_tests_cant": "ranges over all lengths; the estimate fails only for short inputs", "anchors": ["vital/kwiversys/Base64.c: kwsysBase64_Encode"]}
{"id": "C71", "title": "C string lists are complete and in bounds", "statement": "The string list handed to C callers (e.g. available_values, plugin names) holds every string NUL-terminated inside its own buffer.", "quantifier": "all lists of strings", "why_tests_cant": "heap overflows by one byte are usually invisible to tests", "anchors": ["vital/bindings/c/helpers/c_utils.cxx: make_string_list"]}
{"id": "C72", "title": "C strings returned by value are complete and in bounds", "statement": "vital_string_new(s.length(), s.c_str()) fills exactly the allocated length+1 bytes with s and a terminating NUL (s without embedded NUL; otherwise s up to its first NUL).", "quantifier": "all strings", "why_tests_cant": "ranges over all strings, including embedded NULs", "anchors": ["vital/bindings/c/common.cxx: vital_string_new"]}
{"id": "C73", "title": "Source locations belong to one block and go away with the value", "statement": "After set_location(key, file, line) on a block, get_location(key) on that block returns exactly that location until it is overwritten or the value is unset; a view does not see the locations of its parent; no other call on any block (set_value, merge_config, subblock, ...) changes a location, and copies start with none.", "quantifier": "all reachable heaps of blocks and views, all keys, all API calls", "why_tests_cant": "it is a frame property over every call on every aliased block; a unit test fixes one history", "anchors": ["vital/config/config_block.cxx:set_location", "vital/config/config_block.cxx:get_location", "vital/config/config_block.cxx:unset_value"]}
{"id": "C74", "title": "Splitting a path and joining the components gives the path back", "statement": "SystemTools::JoinPath(SplitPath(p)) without home expansion equals p for every path without backslashes other than a bare \"~user\", for which a slash is added.", "quantifier": "all path strings", "why_tests_cant": "infinitely many paths; the corner cases are repeated, leading and trailing slashes, drive letters and tildes", "anchors": ["vital/kwiversys/SystemTools.cxx:SplitPath", "vital/kwiversys/SystemTools.cxx:JoinPath", "vital/kwiversys/SystemTools.cxx:SplitPathRootComponent"]}
{"id": "C75", "title": "CollapseFullPath returns a canonical absolute path", "statement": "CollapseFullPath(p, base) is absolute, contains no \".\" or \"..\" or empty components, collapsing it again changes nothing, and p/x/.. collapses to what p collapses to.", "quantifier": "all path strings, all absolute bases, all home directories, no registered translations", "why_tests_cant": "canonicity and idempotence are statements about all paths and environments", "anchors": ["vital/kwiversys/SystemTools.cxx:CollapseFullPath", "vital/kwiversys/SystemTools.cxx:SystemToolsAppendComponents"]}
{"id": "C76", "title": "\"~/x\" denotes x in the home directory", "statement": "CollapseFullPath(\"~/x\") is the collapsed form of HOME/x whatever the working directory is.", "quantifier": "all settings of HOME, all x, all working directories", "why_tests_cant": "depends on the environment; the failing setting (HOME=/) is not one a test would pick", "anchors": ["vital/kwiversys/SystemTools.cxx:SplitPath", "vital/kwiversys/SystemTools.cxx:CollapseFullPath"]}
{"id": "C77", "title": "SplitPath terminates", "statement": "SplitPath with home directory expansion returns for every path and every environment.", "quantifier": "all paths, all settings of HOME and of the password database", "why_tests_cant": "termination over all environments; a test that finds the failing one hangs", "anchors": ["vital/kwiversys/SystemTools.cxx:SplitPath"]}
{"id": "C78", "title": "ConvertToUnixSlashes is idempotent and leaves no double slashes", "statement": "Converting a path twice is the same as converting it once; the result holds no double slash after its first character; a path already in that form is unchanged.", "quantifier": "all path strings", "why_tests_cant": "universally quantified string property; the failing interplay of a backslash before a slash is easily missed", "anchors": ["vital/kwiversys/SystemTools.cxx:ConvertToUnixSlashes"]}
{"id": "C79", "title": "FindFile searches the caller's directories first", "statement": "FindFile(name, dirs) returns the collapsed path of name in the first of the caller's directories holding it, and searches the system path only afterwards; it returns \"\" exactly when there is no such file.", "quantifier": "all file systems, PATH settings, search lists and names", "why_tests_cant": "the outcome depends on the whole environment and the order of search directories", "anchors": ["vital/kwiversys/SystemTools.cxx:FindFile", "vital/kwiversys/SystemTools.cxx:FindName", "vital/kwiversys/SystemTools.hxx.in:FindFile"]}
{"id": "C80", "title": "GetPath cuts a path variable exactly at its colons", "statement": "The entries SystemTools::GetPath appends hold no colon and, each followed by a colon, spell the variable's text (with a final colon if missing); an unset or empty variable adds nothing.", "quantifier": "all environments and variable values", "why_tests_cant": "universally quantified over strings, including empty segments", "anchors": ["vital/kwiversys/SystemTools.cxx:GetPath"]}
{"id": "C81", "title": "Which file an include directive means", "statement": "An include of an absolute name (or one starting with ~) means that file; a relative name means the first existing candidate in the directories of the system search path and then the search path, and failing that in the directory of the including file, then of the file that includes it, and so on outwards; a candidate that is a directory, or no candidate at all, makes the parse throw not-found.", "quantifier": "every file system, environment, search path, stack of including files and name", "why_tests_cant": "All nestings and file systems.", "anchors": ["vital/config/config_parser.cxx: resolve_file_name", "vital/kwiversys/SystemTools.cxx: FindFile, FindName"]}
{"id": "C82", "title": "A key protected by a configuration file is protected in the config read", "statement": "When the highest-priority configuration file marks a key [RO], the config block returned by read_config_file reports it read-only.", "quantifier": "every file system, search path, merge flag", "why_tests_cant": "All combinations of files.", "anchors": ["vital/config/config_block_io.cxx: read_config_file", "vital/config/config_block.cxx: merge_config"]}
{"id": "C83", "title": "Order of the configuration directories", "statement": "Directories of KWIVER_CONFIG_PATH come first; the user's directory comes before the system-wide /etc ones and those before /usr; for each base directory the version-specific one comes directly before the general one; directories of a nonstandard prefix come last.", "quantifier": "every environment, application name, version and prefix", "why_tests_cant": "All environments.", "anchors": ["vital/config/config_block_io.cxx: config_file_paths, application_paths"]}
{"id": "C84", "title": "A config file written without an exception reads back", "statement": "If write_config_file returns normally for a block with parser-readable keys and plain values then read_config_file of that path returns the same keys and values.", "quantifier": "every block, file system and directory state", "why_tests_cant": "All blocks and file systems.", "anchors": ["vital/config/config_block_io.cxx: write_config_file, read_config_file"]}
{"id": "C85", "title": "A failing write_config_file changes no file", "statement": "If write_config_file throws, every existing file has the content it had before.", "quantifier": "every block, file system and path", "why_tests_cant": "All failure points.", "anchors": ["vital/config/config_block_io.cxx: write_config_file, write_config"]}
{"id": "C86", "title": "Registered-name lists are exact", "statement": "registered_names(type), for a non-empty type name, lists exactly the implementation names for which something was registered under that type, sorted and without repetition; registered_names(\"\") lists all full names the same way; has_impl_name and has_type_name agree with these lists.", "quantifier": "every registration history and type name", "why_tests_cant": "All histories.", "anchors": ["vital/algo/algorithm.cxx: registered_names, has_impl_name, has_type_name", "vital/registrar.h: registered_names"]}
{"id": "C87", "title": "Generic and typed factories agree", "statement": "For the abstract algorithm types of the library, algorithm::create(type, impl) and algorithm_def::create(impl) find the same registration, their name lists are equal, and the created object has exactly that type and implementation name; this needs type names without ':' and fails with them.", "quantifier": "every registration history, class and implementation name", "why_tests_cant": "All histories and names.", "anchors": ["vital/algo/algorithm.cxx: create", "vital/algo/algorithm.txx: create, register_instance, registered_names", "vital/algo/*.h: static_type_name"]}
{"id": "C88", "title": "The description of a nested algorithm's type lists the registered implementations", "statement": "The description that get_nested_algo_configuration attaches to name:type is a fixed heading followed by one line for each registered implementation in order, with the description of the object registered last under that name.", "quantifier": "every registration history, type and name", "why_tests_cant": "All registries.", "anchors": ["vital/algo/algorithm.cxx: get_nested_algo_configuration"]}
{"id": "C89", "title": "get_impl_configurations shows each implementation's configuration", "statement": "get_impl_configurations returns a new block whose entries are exactly impl:key = value for every registered implementation of the class and every entry of the configuration of the object registered for it.", "quantifier": "every registration history, every plugin whose get_configuration depends on the object only, every state of other config blocks", "why_tests_cant": "All registries and configurations.", "anchors": ["vital/algo/algorithm.txx: get_impl_configurations"]}
{"id": "C90", "title": "PLY vertex fields follow the declared property order", "statement": "Each value of a vertex line goes to the field that the property declaration at the same position names (upper or lower case, with the documented alternative names), unknown names are skipped, the last of several declarations of one field wins, and fields that are not declared keep their defaults; without a declared id the landmark gets its line number.", "quantifier": "every header and every vertex line", "why_tests_cant": "Any number and order of properties.", "anchors": ["vital/io/landmark_map_io.cxx: read_ply_file"]}
{"id": "C91", "title": "File readers and writers throw exactly in the documented cases", "statement": "write_ply_file, write_track_file and write_krtd_file throw file_write_exception exactly when there is nothing to write, the path is a directory, or the missing parent directory cannot be made, and then no file is changed; the readers throw file_not_found / file_not_read exactly when the file is missing (or a directory) / cannot be opened.", "quantifier": "every path, every state of the file system and every content", "why_tests_cant": "All file system states.", "anchors": ["vital/io/landmark_map_io.cxx", "vital/io/track_set_io.cxx", "vital/io/camera_io.cxx"]}
{"id": "C92", "title": "Stream operators read back what they write", "statement": "For colours, features, landmarks, rotations and similarities, operator>> applied to the output of operator<< returns the same value up to the printed precision and leaves the following text unread.", "quantifier": "every value with finite numbers and every text that follows", "why_tests_cant": "All values and contexts.", "anchors": ["vital/types/color.h: operator<<, operator>>", "vital/types/feature.cxx", "vital/types/landmark.cxx", "vital/types/rotation.cxx", "vital/types/similarity.cxx", "vital/io/eigen_io.h"]}
{"id": "C93", "title": "Track file lines are grouped by track id", "statement": "read_track_file returns one track per id, in the order in which the ids first appear, holding the observations of that id in file order without those whose frame is not above the frame kept before.", "quantifier": "every file of well-formed lines, in any interleaving", "why_tests_cant": "Unbounded files and interleavings.", "anchors": ["vital/io/track_set_io.cxx: read_track_file", "vital/types/track.cxx: append"]}
{"id": "C94", "title": "The tracks read are determined by the text", "statement": "read_track_file of the same text always returns the same tracks or throws; a blank line makes it throw invalid_data, and the text causes no other exception.", "quantifier": "every text and every content of uninitialised memory", "why_tests_cant": "Indeterminate values differ from run to run.", "anchors": ["vital/io/track_set_io.cxx: read_track_file", "vital/types/feature.cxx: operator>>"]}
{"id": "C95", "title": "Camera maps hold exactly the cameras found", "statement": "read_krtd_files returns a map from image positions to the cameras of the images whose .krtd file exists in the directory, without null entries, and throws when the directory is missing, when no camera is found, or when a camera file that exists cannot be read.", "quantifier": "every list of images, every directory content and every order of evaluation the language allows", "why_tests_cant": "All file systems and evaluation orders.", "anchors": ["vital/io/camera_map_io.cxx: read_krtd_files", "vital/io/camera_io.cxx: read_krtd_file"]}
{"id": "C96", "title": "Log messages of several threads are not mixed", "statement": "When several threads log through the default logger, the stream holds the complete lines of each enabled message one message after the other, in an order that keeps each thread's own order; no message is lost, repeated or interleaved with another one; and no thread can be blocked for ever.", "quantifier": "every number of threads, every sequence of log calls of each thread, every message and every interleaving", "why_tests_cant": "Interleavings cannot be enumerated by tests.", "anchors": ["vital/logger/default_logger.cxx: log_message_i", "vital/logger/default_logger.cxx: log_error, log_warn, log_info, log_debug, log_trace, log_fatal"]}
{"id": "C97", "title": "One logger manager and one logger per name under concurrency", "statement": "However threads calling get_logger are scheduled, one manager object is made and returned to all of them, no thread is blocked for ever, and calls with the same name return the same logger.", "quantifier": "every number of threads, every name and every interleaving", "why_tests_cant": "The window between test and store is rarely hit in tests.", "anchors": ["vital/logger/kwiver_logger_manager.cxx: instance", "vital/logger/default_logger.cxx: get_logger"]}
{"id": "C98", "title": "Time stamps tell times apart", "statement": "Two log lines printed at different milliseconds of the same second show different time stamps, in the order of the times.", "quantifier": "every pair of times", "why_tests_cant": "All pairs of times.", "anchors": ["vital/logger/default_logger.cxx: log_message_i"]}
{"id": "C99", "title": "Class and method names are taken from the signature", "statement": "For the pretty signature of a member function, constructor or plain function the location reports the class name (empty for a plain function) and the method name as written in the source.", "quantifier": "every signature of the stated form", "why_tests_cant": "All signatures.", "anchors": ["vital/logger/location_info.cxx: get_class_name, get_method_name"]}
{"id": "C100", "title": "Rotations form a group of isometries", "statement": "(A*B)*v = A*(B*v), A.inverse() undoes A, composition is associative with neutral identity, the matrix of a rotation acts as the rotation does and the matrix of a product is the product; a rotation keeps dot and cross products and is linear. This holds for every rotation holding a unit quaternion, and the constructors from angle and axis, Rodrigues vector, yaw/pitch/roll and rotation matrix, composition, inversion and interpolation all produce such rotations (the raw quaternion constructors do not normalize) (exact arithmetic).", "quantifier": "every rotation and vector", "why_tests_cant": "All real parameters.", "anchors": ["vital/types/rotation.h: inverse", "vital/types/rotation.cxx: operator*"]}
{"id": "C101", "title": "A rotation matrix and its rotation determine each other", "statement": "Constructing a rotation from a proper rotation matrix and converting it back gives the same matrix; converting a rotation to a matrix and constructing from it gives the same quaternion up to sign, hence the same action; two rotations act alike exactly when their quaternions agree up to sign (exact arithmetic).", "quantifier": "every proper rotation matrix and unit rotation", "why_tests_cant": "All real parameters and all branches of the conversion.", "anchors": ["vital/types/rotation.cxx: rotation_(matrix), matrix"]}
{"id": "C102", "title": "Angle, axis and Rodrigues vector describe the rotation", "statement": "angle() is in (-pi, pi], axis() is a unit vector, and the rotation built from them, or from rodrigues(), acts as the original; building from an angle in (0, pi] and a non-zero axis and reading back gives the angle and the normalized axis, and from a Rodrigues vector of length at most pi gives the vector (exact arithmetic).", "quantifier": "every rotation, angle, axis, vector", "why_tests_cant": "All real parameters including the zero angle and half turns.", "anchors": ["vital/types/rotation.cxx: angle, axis, rodrigues, rotation_(angle, axis), rotation_(rvec)"]}
{"id": "C103", "title": "Yaw, pitch and roll round trip", "statement": "Building a rotation from yaw and roll in (-pi, pi] and pitch in (-pi/2, pi/2) and reading the angles back gives the same angles; reading the angles of any rotation and building from them gives a rotation that acts as the original (exact arithmetic).", "quantifier": "every angle triple, every unit rotation", "why_tests_cant": "All real parameters, including pitch at the poles.", "anchors": ["vital/types/rotation.cxx: rotation_(yaw, pitch, roll), get_yaw_pitch_roll"]}
{"id": "C104", "title": "Interpolated rotations are evenly spaced", "statement": "interpolate_rotation(A,B,0) is A and at 1 acts as B; between fractions f and g it turns by (g-f) times the whole angle about a fixed axis; interpolated_rotations(A,B,n,out) appends exactly n rotations and every step from A through them to B is the same rotation (exact arithmetic).", "quantifier": "every pair of unit rotations, fraction and count", "why_tests_cant": "All real parameters and counts.", "anchors": ["vital/types/rotation.cxx: interpolate_rotation, interpolated_rotations"]}
{"id": "C105", "title": "A similarity is recovered from its matrix", "statement": "Constructing a similarity from the 4x4 matrix of a similarity of positive scale gives the same scale, translation and action, and the constructor's result depends only on its argument.", "quantifier": "every similarity; every 4x4 matrix", "why_tests_cant": "All real matrices.", "anchors": ["vital/types/similarity.cxx: similarity_(matrix)"]}
{"id": "C106", "title": "Homographies map points projectively", "statement": "map(p) returns the image under the projective map of the matrix, throwing only when the third coordinate is (nearly) zero; the product of two homographies maps a point to the image of its image whenever both maps succeed; inverse() is the inverse matrix, undoes map, and throws exactly for (nearly) singular matrices; normalize() does not change where points go and makes the lower right entry 1 when it is not (nearly) 0.", "quantifier": "every homography and point, float and double thresholds", "why_tests_cant": "All real parameters.", "anchors": ["vital/types/homography.cxx: map, inverse, normalize, operator*"]}
{"id": "C107", "title": "A camera projects, and has depth and translation, consistently with its centre and rotation", "statement": "For every camera: rotation*p + translation = rotation*(p - center), the translation maps the centre to the origin, set_translation followed by translation returns its argument and set_translation(translation()) changes nothing (unit rotation); depth(p) is the third homogeneous coordinate of as_matrix()*p; without distortion and with depth != 0, as_matrix()*p is depth(p) times the homogeneous projected point; points on one ray through the centre project to one image point, depth is linear along the ray and 0 at the centre (exact arithmetic).", "quantifier": "every camera, point and ray", "why_tests_cant": "All real parameters.", "anchors": ["vital/types/camera.cxx: as_matrix, project, depth", "vital/types/camera.h: translation, set_translation"]}
{"id": "C108", "title": "look_at turns the camera to the point", "statement": "look_at(stare, up) keeps the centre and yields a unit rotation, for which the stare point lies on the positive optical axis at depth equal to its distance from the centre, and the up direction appears vertically upwards in the image (x component 0, y component negative), whenever up is not parallel to the viewing direction and the stare point is not the centre (exact arithmetic).", "quantifier": "every camera, stare point and up direction", "why_tests_cant": "All real parameters.", "anchors": ["vital/types/camera.cxx: simple_camera::look_at"]}
{"id": "C109", "title": "Essential matrices satisfy the epipolar constraint and are recovered from a matrix", "statement": "For an essential matrix with rotation R and translation t, every pair of rays to one scene point (x1 and R x1 + s t, at any scale) satisfies x2' E x1 = 0; scaling t positively leaves the matrix unchanged and the stored translation is of unit length; the twisted rotation is a rotation, gives -E, and is the half turn about t after R; the matrix constructor yields a unit rotation and translation, reproduces an essential matrix up to sign and scale, and gives up to sign a closest essential matrix to its argument (exact arithmetic, SVD as specified).", "quantifier": "every essential matrix, matrix with an SVD, point and scale", "why_tests_cant": "All real parameters.", "anchors": ["vital/types/essential_matrix.cxx: essential_matrix_, compute_matrix, compute_twisted_rotation"]}
{"id": "C110", "title": "A fundamental matrix is singular and of unit norm", "statement": "The fundamental_matrix constructor stores a matrix of determinant 0 and Frobenius norm 1, a positive multiple of a closest matrix of rank at most 2 to its argument, whenever the argument has rank at least 1 (exact arithmetic, SVD as specified).", "quantifier": "every non-zero matrix with an SVD", "why_tests_cant": "All real parameters.", "anchors": ["vital/types/fundamental_matrix.cxx: fundamental_matrix_"]}
{"id": "C111", "title": "A latitude and longitude is valid exactly inside its ranges", "statement": "is_valid() is true exactly when the latitude is a number in [-90, 90] and the longitude one in [-180, 360], never for NaN or infinity; is_empty() holds exactly for the default-constructed value, which is never valid; each setter changes only its own member; == is false whenever a member is NaN and != is its negation.", "quantifier": "every pair of doubles", "why_tests_cant": "All doubles, including NaN and infinities.", "anchors": ["vital/types/geo_lat_lon.cxx: is_valid, is_empty, operator=="]}
{"id": "C112", "title": "Undistorting inverts distorting", "statement": "undistort(distort(p)) is within the convergence tolerance of p for moderate distortion coefficients and points of the image (exact arithmetic, exact linear solver).", "quantifier": "every coefficient vector within the bounds and point of the image", "why_tests_cant": "All real parameters.", "anchors": ["vital/types/camera_intrinsics.cxx: undistort, distort, distortion_jacobian"]}
{"id": "C113", "title": "Two maps are paired by their common keys", "statement": "estimate_transform on two camera maps or two landmark maps calls the estimator with exactly the points (centres, locations) under the ids present in both maps, by ascending id, corresponding points at the same index; both vectors have the same length.", "quantifier": "every pair of maps", "why_tests_cant": "All key sets and interleavings of keys.", "anchors": ["vital/algo/estimate_similarity_transform.cxx: map_to_pts, estimate_transform"]}
{"id": "C114", "title": "optimize_cameras gives each camera its own correspondences", "statement": "optimize(cameras, tracks, landmarks) calls the optimizer once per camera, in frame order, with exactly the features and landmarks of the tracks that have a landmark and a feature on that camera's frame (one per track id, ascending, feature and landmark at the same index, the last state if several); the result has the same frames; it throws invalid_value exactly for a null argument, passes on what the optimizer throws, and changes nothing when it throws.", "quantifier": "every camera map, track set and landmark map", "why_tests_cant": "All track sets, including repeated ids, missing features and frames without camera.", "anchors": ["vital/algo/optimize_cameras.cxx: optimize"]}
{"id": "C115", "title": "Filtered features and descriptors stay together", "statement": "filter(features, descriptors) returns the features kept by the filter and, at the same index, the descriptor of each; it is defined exactly when each index the filter reports is below the number of descriptors.", "quantifier": "every filter, feature set and descriptor set", "why_tests_cant": "All filters.", "anchors": ["vital/algo/filter_features.cxx: filter"]}
{"id": "C116", "title": "Estimators get the locations of the matched features", "statement": "The feature-set overloads of estimate_homography, estimate_fundamental_matrix and estimate_essential_matrix pass one pair of points per match, in order: the locations of the features the match names; they are defined exactly when each match names existing, non-null features.", "quantifier": "every pair of feature sets and match set", "why_tests_cant": "All index pairs.", "anchors": ["vital/algo/estimate_homography.cxx: estimate", "vital/algo/estimate_fundamental_matrix.cxx: estimate", "vital/algo/estimate_essential_matrix.cxx: estimate"]}
{"id": "C117", "title": "image_io rejects unusable paths before the implementation runs", "statement": "load(name) throws path_not_exists when the name does not exist and path_not_a_file when it is a directory, and otherwise does what the implementation does for that name; save(name, image) throws path_not_exists or path_not_a_directory when the directory that contains the file (of the collapsed absolute path) does not exist or is none, and otherwise does what the implementation does for the name and image.", "quantifier": "every name and file system", "why_tests_cant": "All path spellings.", "anchors": ["vital/algo/image_io.cxx: load, save"]}
{"id": "C118", "title": "RegularExpression: compile accepts exactly the regular expressions", "statement": "compile(exp) never writes or reads outside the program it allocates. It returns true only for texts of the documented grammar (at most nine groups; * and + only on parts that cannot match the empty text; ranges in order) whose program is below 32767 bytes, it accepts every such text of at most 127 characters, and it refuses every other text; the grammar gives a text one meaning only.", "quantifier": "every C string", "why_tests_cant": "the compiler writes relative byte offsets into a buffer sized by a separate first pass and moves code already emitted; that both passes agree and every patched offset stays inside holds or fails per pattern, of which there are infinitely many", "anchors": ["vital/kwiversys/RegularExpression.cxx: compile, reg, regbranch, regpiece, regatom, regtail, reginsert"]}
{"id": "C119", "title": "RegularExpression: find is true exactly when there is a match", "statement": "After a successful compile, find(text) terminates without bad memory access for every text and returns true exactly when some part of the text is matched by the expression in the sense of the textbook definition of matching; the first-character, anchor and must-appear optimizations never change the result.", "quantifier": "every accepted expression and every text", "why_tests_cant": "backtracking over nested repetition and the three shortcuts interact; completeness is a statement about all texts", "anchors": ["vital/kwiversys/RegularExpression.cxx: find, regtry, regmatch, regrepeat", "vital/kwiversys/RegularExpression.hxx.in: find"]}
{"id": "C120", "title": "RegularExpression: the match found is the leftmost one, and its end is the preferred one", "statement": "The match reported by find starts at the leftmost position where any match starts; among the matches from there it is the first in the order: alternatives from left to right, more repetitions before fewer, optional parts present before absent, earlier choices before later ones. start(n) and end(n) are the last entering and leaving of group n on that way.", "quantifier": "every accepted expression and every text with a match", "why_tests_cant": "the order is defined by the recursion of the matcher over all ways to match", "anchors": ["vital/kwiversys/RegularExpression.cxx: find, regtry, regmatch"]}
{"id": "C121", "title": "RegularExpression: groups are parts of the match that the group's own expression matches", "statement": "After a successful find, for every group number n, either start(n) and end(n) are both unset, or they delimit a part of the whole match that the expression inside the n-th parentheses matches.", "quantifier": "every accepted expression, every text with a match, every group number", "why_tests_cant": "pointers are assigned while unwinding a backtracking recursion; consistency of start and end from different repetitions is a global property", "anchors": ["vital/kwiversys/RegularExpression.cxx: regmatch, regtry", "vital/kwiversys/RegularExpression.hxx.in: start, end, match"]}
{"id": "C122", "title": "RegularExpression objects: every history of calls leaves a usable object", "statement": "After any sequence of compile, find, set_invalid, copies and assignments, is_valid() is true exactly when the object has an expression, find works with the expression of the last compile that returned true (or of the object copied from), and after a find that returned true start, end and match(n) describe exactly that match, never an older one. A failed compile leaves the object with its old expression.", "quantifier": "every history of calls on any number of objects, every text", "why_tests_cant": "some members keep values from earlier calls (failed finds, failed compiles, copies); only an invariant over all histories shows which reads are safe", "anchors": ["vital/kwiversys/RegularExpression.cxx: compile, find, operator=, copy constructor", "vital/kwiversys/RegularExpression.hxx.in: is_valid, set_invalid, start, end, match"]}
{"id": "C123", "title": "The regular expressions of the configuration code recognise what its documentation says", "statement": "The pattern of expand_token finds exactly the leftmost $TYPE{name} with its type as group 1 and its name as group 2 (unset if there is none); the patterns of get_token match, at the start of the line only, the longest key not ending in a colon, and a bracketed flag list.", "quantifier": "every string", "why_tests_cant": "what a pattern matches on every string, through the compiled program, cannot be sampled", "anchors": ["vital/config/token_expander.cxx: expand_token", "vital/config/config_parser.cxx: get_token", "vital/kwiversys/RegularExpression.cxx: compile, find"]}
{"id": "C124", "title": "C config block handles: a C program is the C++ program it stands for", "statement": "Any sequence of vital_config_block_* calls has exactly the effect and the results of the C++ calls on the blocks the handles name: a handle names the block it was created for until it is destroyed; on a dead, unknown or NULL handle a call returns NULL/false and changes nothing; a value set through a handle is read back through it; the answers of a C call are those of the C++ call, with NULL/false in place of an exception.", "quantifier": "every sequence of calls, every choice of addresses the allocator may make (including reuse of freed addresses), every key and value", "why_tests_cant": "handles are raw addresses looked up in a reference-counted cache; reuse of an address after destroy and mixed histories are unbounded", "anchors": ["vital/bindings/c/config_block.cxx: all vital_config_block_* functions except file_read/file_write", "vital/bindings/c/helpers/c_utils.h: SharedPointerCache"]}
{"id": "C125", "title": "C config block handles: no use after free", "statement": "No sequence of C calls touches a config block that has been freed; a view keeps the blocks it is a view of alive even after their handles are destroyed, and a block is freed once no handle needs it.", "quantifier": "every sequence of calls and every legal allocator behaviour", "why_tests_cant": "memory safety over all histories; a test would have to hit the right order of destroys", "anchors": ["vital/bindings/c/config_block.cxx: subblock_view, destroy", "vital/config/config_block.h: m_parent"]}
{"id": "C126", "title": "C file functions report failures through the error handle", "statement": "vital_config_block_file_read and file_read_from_standard_location return a handle to the block read and leave the error handle alone; on failure they return NULL and, if the error handle is non-null, set code 1 (not found), 2 (not readable), 3 (not parsed) or -1 (other) with a message; file_write sets 1 or -1. A NULL error handle is allowed.", "quantifier": "every file system, path, block, error handle (NULL or not) and exception text", "why_tests_cant": "the failure paths depend on the length of every message and on optional pointers", "anchors": ["vital/bindings/c/config_block.cxx: read_config_file_helper, vital_config_block_file_read, vital_config_block_file_read_from_standard_location, vital_config_block_file_write", "vital/bindings/c/config_block.h: documented error codes"]}
{"id": "C127", "title": "C images built from raw data have the pixels the header documents", "statement": "vital_image_new_from_data returns an image whose pixel (i,j,k) is the byte at first_pixel + i*w_step + j*h_step + k*d_step of the caller's buffer, for every combination of signs of the steps.", "quantifier": "every size, every step (positive or negative), every buffer", "why_tests_cant": "address arithmetic over all sizes and signs", "anchors": ["vital/bindings/c/image.cxx: vital_image_new_from_data", "vital/bindings/c/image.h"]}
{"id": "C128", "title": "C camera maps and track sets hold the objects of the handles passed in", "statement": "A camera map made from (frame, camera) arrays holds for each frame the camera of the last pair given; get_map returns exactly its frames in ascending order with the handles of their cameras, and keeps one more reference on each so the handles stay valid; a dead handle makes the constructor fail without effect. A track set holds the tracks of its handles in order.", "quantifier": "every list of pairs or handles, every prior history of the caches", "why_tests_cant": "reference counts across all histories", "anchors": ["vital/bindings/c/camera_map.cxx: vital_camera_map_new, get_map, size, destroy", "vital/bindings/c/track_set.cxx: vital_trackset_new"]}
{"id": "C129", "title": "C algorithm handles: a C program is the C++ program it stands for", "statement": "Any sequence of vital_algorithm_* calls has exactly the effect and the results of the C++ calls on the objects the handles name; a handle is accepted by the general functions and by the functions of its own class only, until destroyed; handles of another class are refused without effect; set_type_config replaces the object and its handle exactly when the config selects a registered implementation, destroys the old handle, and leaves everything as it was when the type is missing, unknown or the configuration throws.", "quantifier": "every sequence of calls, every set of registered plugins, arbitrary virtual functions of plugins, every legal choice of addresses", "why_tests_cant": "two caches must stay in step over unbounded histories and over all exceptions", "anchors": ["vital/bindings/c/helpers/algorithm.h: DEFINE_COMMON_ALGO_API", "vital/bindings/c/algorithm.cxx", "vital/algo/algorithm.txx: set_nested_algo_configuration"]}
{"id": "C130", "title": "vital_algorithm_check_impl_configuration reports the result of the check", "statement": "For a live algorithm handle and a live config handle the call returns true exactly when the implementation's check_configuration returns true.", "quantifier": "every implementation, object and configuration", "why_tests_cant": "it must hold for every plugin", "anchors": ["vital/bindings/c/algorithm.cxx: vital_algorithm_check_impl_configuration"]}
{"id": "C131", "title": "The plugin search path is environment, defaults, additions, in that order", "statement": "After any history of add_search_path and register_plugins calls, get_search_path returns the directories of KWIVER_PLUGIN_PATH cut exactly at the path separators, then those of the built-in default list, then the directories added, each group in its own order; register_plugins never changes it. SystemTools::Split gives the parts between separators (a separator at the end only terminates the last part), and its result tells whether the text ended with one.", "quantifier": "every value of the environment variable and of the default list, every history of calls", "why_tests_cant": "tests use a handful of path lists; the claim is about all strings (empty parts, trailing separators) and all call histories", "anchors": ["vital/algorithm_plugin_manager.cxx:algorithm_plugin_manager", "vital/algorithm_plugin_manager.cxx:add_search_path", "vital/algorithm_plugin_manager.cxx:get_search_path", "vital/kwiversys/SystemTools.cxx:Split"]}
{"id": "C132", "title": "register_plugins tries exactly the module files on the search path", "statement": "One call of register_plugins(name) tries to load, in the order of the search path and of each directory's listing, exactly the directory entries that are not directories, end in \".so\" and whose part before the first dot is name (any, when name is empty), of those search path entries that are not empty, are readable and are directories; when there is no such file nothing changes.", "quantifier": "every file system content, every search path, every name", "why_tests_cant": "a test sets up a few directories; the claim is for all directory contents and names", "anchors": ["vital/algorithm_plugin_manager.cxx:load_modules_in_directory", "vital/algorithm_plugin_manager.cxx:load_from_search_paths", "vital/algorithm_plugin_manager.cxx:register_plugins", "vital/kwiversys/Directory.cxx:Load"]}
{"id": "C133", "title": "registered_module_names is exact", "statement": "After any history of calls, registered_module_names lists in ascending order and without repetition exactly the module names (file name without its last extension) of the files whose registration function was run and did not return a positive number. A file is not opened exactly when no library answers for its path, and otherwise the library's registration function, when it has one, is called once with the registrar as it is.", "quantifier": "every file system, every sequence of calls with the file system changing in between, every behaviour of the registration functions", "why_tests_cant": "depends on the history of all attempts and on arbitrary plugins", "anchors": ["vital/algorithm_plugin_manager.cxx:register_from_module", "vital/algorithm_plugin_manager.cxx:registered_module_names"]}
{"id": "C134", "title": "register_plugins(name) loads the modules of that name", "statement": "register_plugins(name) with a non-empty name tries exactly the files name.so in the usable directories of the search path, because a module's name is its file name without the library suffix.", "quantifier": "every name, every directory content", "why_tests_cant": "tests use names without dots; the filter compares the part before the first dot, so a module \"foo.1\" cannot be loaded by its name and is loaded by the name \"foo\"", "anchors": ["vital/algorithm_plugin_manager.h:register_plugins", "vital/algorithm_plugin_manager.h:registered_module_names", "vital/algorithm_plugin_manager.cxx:load_modules_in_directory"]}
{"id": "C135", "title": "A registered implementation keeps its code", "statement": "After any history of loading and reloading plugins, every implementation that can be found in the registrar has its code in memory: the library it came from is not unloaded while the registrar still refers to it.", "quantifier": "every history of calls, every set of plugin files, every return value of the registration functions", "why_tests_cant": "a failing module that has registered something is closed all the same; whether that crashes later depends on the history", "anchors": ["vital/algorithm_plugin_manager.cxx:register_from_module", "vital/kwiversys/DynamicLoader.cxx:CloseLibrary"]}
{"id": "C136", "title": "Reloading replaces plugins by their newer versions", "statement": "When register_plugins finds a module file, the implementations it registers are the ones of the file as it is now; existing implementations with their names are replaced, others are left alone.", "quantifier": "every history of calls, every change of the files between the calls", "why_tests_cant": "needs files that change between calls; a library still in memory answers instead of the new file, so the documented replacement does not happen for loaded modules", "anchors": ["vital/algorithm_plugin_manager.h:register_plugins", "vital/algorithm_plugin_manager.cxx:register_from_module", "vital/kwiversys/DynamicLoader.cxx:OpenLibrary"]}
{"id": "C137", "title": "load_plugins_once loads once under concurrency", "statement": "However many threads call load_plugins_once however often, register_plugins runs to its end at most once; a call that returns, with true or false, does so after the loading is complete; at most one call returns true, and exactly one does when some call has returned and none is under way; an exception leaves the next caller to load; there is no deadlock.", "quantifier": "every number of threads and calls, every schedule", "why_tests_cant": "holds for all interleavings, which tests cannot enumerate", "anchors": ["vital/algorithm_plugin_manager.cxx:load_plugins_once"]}
{"id": "C138", "title": "Frame homographies own their transformation", "statement": "f2f_homography and f2w_homography retain a unique copy of their transformation: making one from a homography pointer, copying one or reading another one's homography() never lets a change to one show in another; copies start with the same transformation and frames.", "quantifier": "every history of constructing, copying, assigning, reading out and writing through pointers", "why_tests_cant": "sharing shows only after particular interleavings of copies and writes; the set of histories is unbounded", "anchors": ["vital/types/homography_f2f.cxx: f2f_homography", "vital/types/homography_f2w.cxx: f2w_homography", "vital/types/homography_f2f.h: f2f_homography"]}
{"id": "C139", "title": "Dynamic descriptors behave as values", "statement": "Each descriptor keeps its own elements: writing to one descriptor changes only that one, every legal use is free of bad memory accesses, the array is released once, and as_bytes / as_double list the elements in order.", "quantifier": "every history of creating, copying, writing and destroying descriptors", "why_tests_cant": "double deletion needs a particular history of copies and destructions", "anchors": ["vital/types/descriptor.h: descriptor_dynamic, descriptor_array_of::as_bytes, as_double, num_bytes"]}
{"id": "C140", "title": "Interval timers show the time since the last start", "statement": "After any sequence of start and stop calls a timer that was not stopped after its last start is active and shows the time since that start; otherwise it is inactive and shows the time from the last start to the last stop; a fresh timer shows zero and, with a clock that never goes back, no elapsed time is negative.", "quantifier": "every history of start/stop calls with at least one start, every clock", "why_tests_cant": "arbitrarily long histories with repeated starts and stops", "anchors": ["vital/util/wall_timer.h.in: start, stop, elapsed", "vital/util/cpu_timer.h.in: start, stop, elapsed", "vital/util/timer.h: timer"]}
{"id": "C141", "title": "get_executable_path is the directory of the program", "statement": "get_executable_path() returns the part of the resolved program path before its last slash, returns the same text on later calls, and returns the empty string when the path cannot be resolved.", "quantifier": "every resolved program path shorter than PATH_MAX", "why_tests_cant": "paths are unbounded data; buffer bounds must hold for all of them", "anchors": ["vital/util/get_paths.cxx: get_executable_path", "vital/util/whereami.c: wai_getExecutablePath"]}
{"id": "C142", "title": "get_module_path is the directory of the module", "statement": "get_module_path() returns the part of the resolved module path before its last slash.", "quantifier": "every resolved module path shorter than PATH_MAX", "why_tests_cant": "the failing write depends on memory contents outside of the string object, a test may pass by accident", "anchors": ["vital/util/get_paths.cxx: get_module_path", "vital/util/whereami.c: wai_getModulePath"]}
{"id": "C143", "title": "C image and container handles share pixels safely", "statement": "For every sequence of calls of the C image and image container functions in which the caller uses image pointers only until it destroys them, no call touches memory it must not, every result is that of a program in which images and containers are views of pixel buffers that never go away (out of range pixel reads and calls on dead container handles return 0 or NULL), a pixel write is seen through every handle on the same pixels, a container handle lives until it was destroyed as often as it was handed out, and a pixel buffer is released exactly when no image or container handle views it any more.", "quantifier": "every sequence of calls, every legal choice of addresses by the allocator (including reuse), every behaviour of a convert_image implementation", "why_tests_cant": "ownership errors show only after particular interleavings of creations, conversions and destructions, and depend on address reuse", "anchors": ["vital/bindings/c/image.cxx: vital_image_new, vital_image_new_with_dim, vital_image_new_from_image, vital_image_destroy, vital_image_get_pixel2, vital_image_get_pixel3", "vital/bindings/c/image_container.cxx: vital_image_container_new_simple, vital_image_container_destroy, vital_image_container_get_image", "vital/bindings/c/algo_def/convert_image.cxx: vital_algorithm_convert_image_convert", "vital/types/image.cxx: image"]}
{"id": "C144", "title": "Python interface objects neither leak nor use a destroyed handle", "statement": "For every history of a Python program that creates interface objects on C handles, makes shallow copies of them with from_c_pointer(..., shallow_copy_of=x), copies references and drops them: no handle is destroyed more often than the C side handed it out; at every moment a handle has exactly as many outstanding references as there are owning objects the program can still reach directly or through copies of copies; the handle of every reachable object is valid; when nothing is reachable, nothing is left.", "quantifier": "all histories of creations, shallow copies, reference copies and drops, of any length", "why_tests_cant": "object lifetimes depend on arbitrary interleavings of drops and chains of shallow copies of unbounded length", "anchors": ["vital/bindings/python/vital/util/VitalObject.py: VitalObject.from_c_pointer, VitalObject.__init__, VitalObject.__del__"]}
{"id": "C145", "title": "kwsysMD5 computes the MD5 of RFC 1321, however the message is cut up", "statement": "Whatever an MD5 object held before, Initialize followed by any sequence of Append calls (byte ranges, or C strings when the length is negative) and Finalize yields the RFC 1321 digest of the bytes passed, for messages of any length and any division into calls; FinalizeHex yields its 32 lower-case hexadecimal digits. The digest is defined from the RFC, including its sine table.", "quantifier": "all messages, all divisions into Append calls, all prior states of the object", "why_tests_cant": "block boundaries, the 64-bit length counter with its carry and the padding depend on the lengths of all calls so far; messages over 512 MiB are not tested", "anchors": ["vital/kwiversys/MD5.c: md5_process, md5_append, md5_finish, kwsysMD5_Append, kwsysMD5_FinalizeHex, kwsysMD5_DigestToHex"]}
{"id": "C146", "title": "Command strings are split into arguments as the quoting rules say", "statement": "Parse_CommandForUnix returns, for every command string, exactly the arguments obtained by separating at unquoted white space, dropping quotation marks and taking the character after a backslash literally (also inside either kind of quotes; an unclosed quote runs to the end, a final backslash is dropped), each NUL-terminated, without overrunning its buffers however long or many the arguments are; wrapping arbitrary arguments in single quotes with backslashes before quotes and backslashes gives them back unchanged; flags other than 0 are refused.", "quantifier": "all command strings up to 1 GiB, all lists of arguments (also empty ones)", "why_tests_cant": "quoting states, escapes and buffer growth (at 1024 bytes and 32 arguments) combine without bound", "anchors": ["vital/kwiversys/System.c: kwsysSystem_Parse_CommandForUnix, kwsysSystem__ParseUnixCommand, kwsysSystem__AppendByte, kwsysSystem__AppendArgument"]}
{"id": "C147", "title": "File name patterns mean what they say", "statement": "The regular expression Glob makes from a pattern matches exactly the names the pattern describes: * is any run of characters but slashes, ? any one character but a slash, a closed bracket one character in (or, after ! or ^, not in) its characters and ranges, with ] first standing for itself, an unclosed [ and every other character for itself, including characters special in regular expressions. A search always ends; a pattern is unusable (and finds nothing) only if a range goes from a greater to a smaller character or the program gets too long, which cannot happen up to 127 characters of expression.", "quantifier": "all patterns without NUL, with and without the whole-string flag, and all names", "why_tests_cant": "patterns and names are unbounded and the translation has to be right in every combination of brackets, marks, dashes and special characters; tests try a handful", "anchors": ["vital/kwiversys/Glob.cxx: Glob::PatternToRegex, Glob::AddExpression", "vital/kwiversys/RegularExpression.cxx: RegularExpression::compile, RegularExpression::find"]}
{"id": "C148", "title": "A file search without recursion finds exactly the paths whose parts match", "statement": "Without recursion, FindFiles on an absolute expression without backslashes returns for every file system and GetFiles then lists exactly the paths made of the leading part of the expression that has no wildcards followed by one listed name (other than . and ..) for each further part that matches that part, where all but the last must be directories and the last may be one only if directories are to be listed; each path appears once if no directory lists a name twice, and results of an earlier search are gone.", "quantifier": "all file systems (any listings, including infinite trees), all absolute expressions, all option settings without recursion, all earlier states of the object", "why_tests_cant": "the result depends on the whole file system and on how the expression is split at slashes and wildcards; unit tests try one tree", "anchors": ["vital/kwiversys/Glob.cxx: Glob::FindFiles, Glob::ProcessDirectory, Glob::AddExpression", "vital/kwiversys/Glob.hxx.in: Glob"]}
{"id": "C149", "title": "A recursive file search ends and is complete even if links form cycles", "statement": "With recursion, on a finite file system, FindFiles always returns, even when followed symbolic links lead back to a directory above; it finds exactly what is below the directories matching the leading parts, lists directories only if asked, never enters a link when links are not to be followed, leaves no visited link behind in the object, and misses no file: every file with a matching name in a directory that can be reached over any sequence of links is found under some path of that directory.", "quantifier": "all finite file systems with arbitrary links, all absolute expressions, all option settings, all walks through directories and links", "why_tests_cant": "termination and completeness range over all link structures and all walks in them", "anchors": ["vital/kwiversys/Glob.cxx: Glob::RecurseDirectory, Glob::ProcessDirectory, Glob::FindFiles"]}
{"id": "C150", "title": "A relative search expression is taken from the working directory", "statement": "An expression that is not absolute finds what it finds below the working directory, the name of the working directory standing for itself.", "quantifier": "all file systems and working directories, all relative expressions", "why_tests_cant": "depends on characters in the name of the directory the program happens to run in", "anchors": ["vital/kwiversys/Glob.cxx: Glob::FindFiles"]}
{"id": "C151", "title": "Command line arguments are read option by option, the longest fitting name first", "statement": "Parse reads the arguments from left to right: each argument that names a registered option (exactly for options without value or with the value in the next argument; as a prefix for the other kinds), is read as the option with the longest fitting name together with the value the option's kind says (none, the rest of the argument, the next argument, the text after `=`, all following arguments up to the next option); arguments naming no option are stored if unused arguments are to be stored. There is at most one such reading; if there is none Parse fails, otherwise the variables, vectors and functions of the options get exactly the values of the reading, in order, converted as their type says, and nothing else is changed.", "quantifier": "all sets of options, all argument lists, all behaviours of the registered functions", "why_tests_cant": "option names that are prefixes of each other, values that look like options and functions that abort parsing interact", "anchors": ["vital/kwiversys/CommandLineArguments.cxx: CommandLineArguments::Parse", "vital/kwiversys/CommandLineArguments.cxx: CommandLineArguments::GetMatchedArguments", "vital/kwiversys/CommandLineArguments.cxx: CommandLineArguments::PopulateVariable"]}
{"id": "C152", "title": "The last argument read and the remaining arguments are reported", "statement": "After Parse failed, GetLastArgument gives the place of the argument at which it failed and GetRemainingArguments gives the program name and the arguments from there on; after it succeeded the last argument read is the last one and no arguments remain. GetRemainingArguments never writes outside the array it allocates.", "quantifier": "all sets of options, all argument lists, all behaviours of the registered functions", "why_tests_cant": "depends on which kind the last option is and on the argument at which parsing stopped", "anchors": ["vital/kwiversys/CommandLineArguments.cxx: CommandLineArguments::GetLastArgument", "vital/kwiversys/CommandLineArguments.cxx: CommandLineArguments::GetRemainingArguments", "vital/kwiversys/CommandLineArguments.cxx: CommandLineArguments::Parse"]}
{"id": "C153", "title": "Unknown arguments and the values of flags are passed on as documented", "statement": "A function registered for an option without value is called with the value \"1\"; arguments that are no option in its documented spelling are stored when unused arguments are to be stored and do not make Parse fail; with a function for unknown arguments, that function is called with the argument and decides whether Parse succeeds.", "quantifier": "all sets of options, all argument lists", "why_tests_cant": "depends on unknown arguments that begin with the name of an option", "anchors": ["vital/kwiversys/CommandLineArguments.hxx.in: class CommandLineArguments", "vital/kwiversys/CommandLineArguments.cxx: CommandLineArguments::Parse", "vital/kwiversys/CommandLineArguments.cxx: CommandLineArguments::GetUnusedArguments"]}
{"id": "C154", "title": "Generating the help text is memory-safe", "statement": "Registering an option and setting the line length (which generate the help text) never read or write outside an array, whatever the names, texts and line length.", "quantifier": "all sets of options, all line lengths from 9 to 1000", "why_tests_cant": "depends on the length of names against fixed arrays and on blanks in the text", "anchors": ["vital/kwiversys/CommandLineArguments.cxx: CommandLineArguments::GenerateHelp"]}
{"id": "C155", "title": "The help lists every option once, with its text", "statement": "The help text has, for every option with a text of its own, the lines of that option and of the options that name it, in order, each padded to a common width, followed by the text cut at blanks into lines that fit; every option is listed exactly once.", "quantifier": "all sets of options and aliases, all line lengths", "why_tests_cant": "two loops over a changing map; depends on the order of names", "anchors": ["vital/kwiversys/CommandLineArguments.cxx: CommandLineArguments::GenerateHelp", "vital/kwiversys/CommandLineArguments.cxx: CommandLineArguments::GetHelp"]}
{"id": "C156", "title": "GetHelp of an option ends with its text", "statement": "GetHelp of an option ends and gives the text of the option it leads to through options that name others; null for an unknown name.", "quantifier": "all sets of options", "why_tests_cant": "termination for all alias graphs", "anchors": ["vital/kwiversys/CommandLineArguments.cxx: CommandLineArguments::GetHelp"]}
{"id": "C157", "title": "hash_map and hash_set are finite maps and sets", "statement": "Starting from an empty kwsys hash_map or hash_set made with any number of buckets, every sequence of insert (one element, without making room, or a range), operator[], assignment through operator[], find, count, erase by key, erase of the element found, clear, resize, size, empty and iteration is carried out and answers exactly as a finite map (set) would: insert keeps the value that is there, erase and count say 0 or 1, iteration visits each key once. A copy answers like the original.", "quantifier": "every key and value type, every hash function, every initial bucket count, every sequence of operations of any length, every choice of node addresses", "why_tests_cant": "collisions and rehashing depend on the whole history and on the hash function; the state space is unbounded", "anchors": ["vital/kwiversys/hashtable.hxx.in: hashtable::insert_unique, find, count, erase, resize, clear, _M_copy_from, iterators", "vital/kwiversys/hash_map.hxx.in: hash_map", "vital/kwiversys/hash_set.hxx.in: hash_set"]}
{"id": "C158", "title": "Elements of a hash table stay where they are", "statement": "An element of a hash_map or hash_set keeps its address and key through every sequence of operations that does not remove its key, so pointers, references and iterators to it stay valid even when the table is enlarged; its value changes only when it is assigned.", "quantifier": "every history before and after, every hash function, every element", "why_tests_cant": "validity of references over arbitrary later operations cannot be sampled", "anchors": ["vital/kwiversys/hashtable.hxx.in: hashtable::resize, insert_unique_noresize, erase"]}
{"id": "C159", "title": "Erasing by a key that is stored in the table", "statement": "m.erase(k) is well defined for every key, including a reference to the key of an element of the map itself (m.erase(it->first)). The code deletes elements while it goes on comparing with the argument; it is undefined behaviour exactly when the element is not the first of its bucket.", "quantifier": "every map that a history of operations produces, every element", "why_tests_cant": "depends on which keys collide, so on the hash function and on the insertion order; a use after free often goes unnoticed", "anchors": ["vital/kwiversys/hashtable.hxx.in: hashtable::erase(const key_type&)"]}
{"id": "C160", "title": "Equality of hash maps and sets", "statement": "operator== is true exactly when the two containers have the same elements. In the code, containers that compare equal have the same elements and a copy compares equal, but containers with the same elements inserted in another order, or with another number of buckets, compare unequal.", "quantifier": "every pair of containers that histories of operations produce", "why_tests_cant": "a relation between two unbounded histories", "anchors": ["vital/kwiversys/hashtable.hxx.in: operator==", "vital/kwiversys/hash_map.hxx.in: operator==", "vital/kwiversys/hash_set.hxx.in: operator=="]}
{"id": "C161", "title": "hash_multimap and hash_multiset are multisets", "statement": "Every sequence of insert, find, count, equal_range, erase by key, erase of one element, erase of an equal range, clear, resize, size and iteration answers as a multiset of pairs would; equal_range delimits exactly the elements with the key, and iteration visits elements with equal keys one after the other, also after the table has been enlarged.", "quantifier": "every key and value type, every hash function, every initial bucket count, every sequence of operations", "why_tests_cant": "the grouping of equal keys must survive every rehash and every removal", "anchors": ["vital/kwiversys/hashtable.hxx.in: hashtable::insert_equal, insert_equal_noresize, equal_range, erase", "vital/kwiversys/hash_map.hxx.in: hash_multimap", "vital/kwiversys/hash_set.hxx.in: hash_multiset"]}
{"id": "C162", "title": "Erasing a range of a hash table", "statement": "erase(first, last) removes exactly the elements a loop from first to last visits, whether they share a bucket or spread over many and whether last is end() or an element; the others stay in the same order and size() is right.", "quantifier": "every table that a history of operations of a map or multimap produces, every pair of iterators with first not after last", "why_tests_cant": "positions in buckets and between them combine without bound", "anchors": ["vital/kwiversys/hashtable.hxx.in: hashtable::erase(iterator, iterator), _M_erase_bucket"]}
{"id": "C163", "title": "Default constructed objects are neutral", "statement": "Default camera intrinsics map every point to itself; the default camera is at the origin and projects a point to (x/z, y/z); the default similarity moves no point; a default timestamp has neither a valid time nor a valid frame; a default track has no states and id 0; a new C error handle has code 0 and no message.", "quantifier": "every point; every feature and descriptor type", "why_tests_cant": "identities over all real points", "anchors": ["vital/types/camera.h: simple_camera()", "vital/types/camera_intrinsics.h: simple_camera_intrinsics()", "vital/types/similarity.h: similarity_()", "vital/types/timestamp.cxx: timestamp()", "vital/types/track.cxx: track()", "vital/bindings/c/error_handle.cxx: vital_eh_new"]}
{"id": "C164", "title": "ReplaceString replaces exactly the leftmost non-overlapping occurrences", "statement": "ReplaceString(source, replace, with) changes source into the text in which the occurrences of replace, found from the left without overlap, are replaced by with, and nothing else is changed; an empty replace changes nothing; this holds for std::string arguments, which may contain NUL.", "quantifier": "every source, search text and replacement", "why_tests_cant": "search texts that overlap themselves and replacements that contain the search text", "anchors": ["vital/kwiversys/SystemTools.cxx: ReplaceString"]}
{"id": "C165", "title": "Case conversions change only the case", "statement": "LowerCase, UpperCase, Capitalized, CapitalizedWords and UnCapitalizedWords give a text of the same length that differs only in case, and change the case exactly at the documented positions; AddSpaceBetweenCapitalizedWords inserts one blank at each joint of capitalised words and nowhere else, and doing it again changes nothing.", "quantifier": "every text", "why_tests_cant": "a relation between all positions of texts of any length", "anchors": ["vital/kwiversys/SystemTools.cxx: LowerCase, UpperCase, Capitalized, CapitalizedWords, UnCapitalizedWords, AddSpaceBetweenCapitalizedWords"]}
{"id": "C166", "title": "SplitString gives the pieces between the separators", "statement": "SplitString(p, sep, isPath) gives the pieces of p between the separators (for an absolute path first \"/\"); joining them gives p back, and no piece contains a separator.", "quantifier": "every text and separator", "why_tests_cant": "empty pieces and leading separators in every combination", "anchors": ["vital/kwiversys/SystemTools.cxx: SplitString"]}
{"id": "C167", "title": "CropString keeps the beginning and the end", "statement": "CropString(s, max) returns s if it is not longer than max; otherwise a text of exactly max characters that consists of a beginning of s, up to three dots and an end of s, the two ends of (almost) the same length.", "quantifier": "every text and length", "why_tests_cant": "every combination of lengths and parities", "anchors": ["vital/kwiversys/SystemTools.cxx: CropString"]}
{"id": "C168", "title": "EscapeChars escapes every listed character and can be undone", "statement": "EscapeChars(s, chars, e) puts e in front of each listed character and changes nothing else; different texts give different results; reading the result with e as the escape character gives s back.", "quantifier": "every text, list of characters and escape character", "why_tests_cant": "injectivity over all pairs of texts", "anchors": ["vital/kwiversys/SystemTools.cxx: EscapeChars"]}
{"id": "C169", "title": "StringStartsWith, StringEndsWith and FindLastString", "statement": "StringStartsWith and StringEndsWith hold exactly when the second text is a prefix (suffix) of the first; a null pointer is neither; FindLastString gives the last occurrence.", "quantifier": "every pair of texts", "why_tests_cant": "exactness over all pairs of texts", "anchors": ["vital/kwiversys/SystemTools.cxx: StringStartsWith, StringEndsWith, FindLastString"]}
{"id": "C170", "title": "Counting, removing, replacing and appending characters", "statement": "CountChar gives the number of occurrences; RemoveChars and RemoveCharsButUpperHex give the sub-sequence of the characters that are to be kept, with their numbers; ReplaceChars changes exactly the listed characters; AppendStrings gives the concatenation, null pointers counting as empty.", "quantifier": "every text and list of characters", "why_tests_cant": "must hold at every position of every text", "anchors": ["vital/kwiversys/SystemTools.cxx: CountChar, RemoveChars, RemoveCharsButUpperHex, ReplaceChars, AppendStrings"]}
{"id": "C171", "title": "MakeCidentifier gives a C identifier", "statement": "MakeCidentifier of a text that is not empty has the form of a C identifier (letters, digits, underscores, no digit first); a text of that form is unchanged; letters, digits and underscores stay where they are.", "quantifier": "every non-empty text", "why_tests_cant": "every character at every position", "anchors": ["vital/kwiversys/SystemTools.cxx: MakeCidentifier"]}
{"id": "C172", "title": "Strucmp compares without regard to case", "statement": "Strucmp is 0 exactly for texts that differ only in case, and its sign is that of a lexicographic order of the lower case texts, transitive and antisymmetric.", "quantifier": "all pairs and triples of texts without NUL", "why_tests_cant": "order laws over all triples", "anchors": ["vital/kwiversys/SystemTools.cxx: Strucmp"]}
{"id": "C173", "title": "GetLineFromStream reads a text line by line", "statement": "GetLineFromStream gives the text up to the next newline without it and without carriage returns at the end of the line, says whether there was a newline, and leaves the stream behind it; the last line may lack its newline; with a size limit at most that many characters are given and the next call continues with the next line; reading until false gives exactly the lines of the text.", "quantifier": "every text, however long its lines are", "why_tests_cant": "lines of any length against the 1024 character buffer", "anchors": ["vital/kwiversys/SystemTools.cxx: GetLineFromStream"]}
{"id": "C174", "title": "ConvertToUnixOutputPath gives one word for the shell", "statement": "a shell reads ConvertToUnixOutputPath(p) as one word, which is p with runs of slashes (behind the first character) made one; doing it again changes nothing.", "quantifier": "every path", "why_tests_cant": "blanks and backslashes in every position", "anchors": ["vital/kwiversys/SystemTools.cxx: ConvertToUnixOutputPath"]}
{"id": "C175", "title": "ConvertToWindowsOutputPath gives backslashes and quotes", "statement": "ConvertToWindowsOutputPath(p) contains no slash; apart from the first one or two characters runs of backslashes are made one; the result is put in quotes exactly if it contains a blank and is not quoted already; doing it again changes nothing.", "quantifier": "every path", "why_tests_cant": "blanks, quotes and slashes in every position", "anchors": ["vital/kwiversys/SystemTools.cxx: ConvertToWindowsOutputPath"]}
{"id": "C176", "title": "FindProgram, FindLibrary and FindDirectory give the first match in the documented order", "statement": "FindProgram and FindLibrary give the full path of the first candidate that is an existing file that is not a directory: the name itself, then the directories given by the caller, then those of the system search path; nothing if there is none. With several names the first name that is found counts. FindFile and FindDirectory look at the same first entry and exactly one of them gives it.", "quantifier": "every file system, environment, name and list of directories", "why_tests_cant": "all file systems and search paths", "anchors": ["vital/kwiversys/SystemTools.cxx: FindProgram, FindLibrary, FindDirectory, FindFile"]}
{"id": "C177", "title": "SplitProgramFromArgs finds the longest program name", "statement": "SplitProgramFromArgs(path) ends, and gives the program named by the longest beginning of path that ends before a blank (or path itself) and names an existing program, and the rest as arguments; false with both empty if there is none.", "quantifier": "every file system and command line", "why_tests_cant": "termination and maximality for every text and file system", "anchors": ["vital/kwiversys/SystemTools.cxx: SplitProgramFromArgs"]}
{"id": "C178", "title": "IsSubDirectory says whether one directory lies below the other", "statement": "IsSubDirectory(sub, dir) holds exactly if the components of dir are a proper beginning of the components of sub.", "quantifier": "every pair of paths", "why_tests_cant": "all pairs of paths", "anchors": ["vital/kwiversys/SystemTools.cxx: IsSubDirectory"]}
{"id": "C179", "title": "EstimateFormatLength is large enough", "statement": "the value of EstimateFormatLength is always at least as large as the length of what is printed with the format and the arguments, and the format is read only within its bounds.", "quantifier": "every format and arguments that fit it", "why_tests_cant": "an upper bound over all formats and values", "anchors": ["vital/kwiversys/SystemTools.cxx: EstimateFormatLength"]}
{"id": "C180", "title": "The date macros are converted, everything else is refused", "statement": "ConvertDateMacroString and ConvertTimeStampMacroString give the month, day, year (and time) of a text in the format of __DATE__ (__TIMESTAMP__) and return false for every other text.", "quantifier": "every date, every time, every text", "why_tests_cant": "all dates and all malformed texts", "anchors": ["vital/kwiversys/SystemTools.cxx: ConvertDateMacroString, ConvertTimeStampMacroString"]}
{"id": "C181", "title": "Timestamps remember what was set and print unambiguously", "statement": "after any sequence of setter calls a timestamp has a valid time (frame) exactly if one was set since the last set_invalid, get_time_usec (get_frame) is then the value set last, is_valid means both, and the time domain is the one set last; pretty_print of two timestamps within the range of ctime is the same text only if they have the same validity, time, frame and domain.", "quantifier": "every sequence of setter calls; every pair of timestamps", "why_tests_cant": "all call histories, and injectivity over all pairs", "anchors": ["vital/types/timestamp.cxx: set_time_usec, set_frame, set_invalid, set_time_domain_index, pretty_print", "vital/types/timestamp.h: is_valid"]}
{"id": "C182", "title": "ParseURLProtocol splits a URL at the first ://", "statement": "ParseURLProtocol returns false exactly if the text does not contain \"://\"; otherwise dataglom is all that follows the first \"://\" and protocol is the longest run of letters and digits that ends there; text before that run is ignored.", "quantifier": "all texts", "why_tests_cant": "The function rests on a backtracking matcher over all texts; tests show a few URLs.", "anchors": ["vital/kwiversys/SystemTools.cxx:ParseURLProtocol", "vital/kwiversys/RegularExpression.cxx"]}
{"id": "C183", "title": "ParseURL gives back the parts of a URL", "statement": "For a URL put together of a protocol, an optional user name with an optional password, a host, an optional port and a database, each of its form, ParseURL returns exactly these parts, an absent part as the empty text; a text without \"://\" is refused.", "quantifier": "all URLs and all their parts", "why_tests_cant": "Which way of the backtracking matcher is taken depends on all of the text; a rarely used combination of parts (a port and an @ in the path) is taken apart wrongly.", "anchors": ["vital/kwiversys/SystemTools.cxx:ParseURL", "vital/kwiversys/RegularExpression.cxx"]}
{"id": "C184", "title": "FilesDiffer decides equality of contents", "statement": "For two readable regular files FilesDiffer returns false exactly if they hold the same bytes; it returns true if one of the two paths leads to nothing.", "quantifier": "all file systems, all paths, files of all sizes (across the block boundaries of the comparison)", "why_tests_cant": "Files are compared in blocks of 4096 bytes; a test sees a few sizes and a few places of difference, and CopyFileIfDifferent silently skips a copy if the answer is wrong.", "anchors": ["vital/kwiversys/SystemTools.cxx:FilesDiffer"]}
{"id": "C185", "title": "MakeDirectory makes the directory and changes nothing else", "statement": "If MakeDirectory returns true the path is a directory afterwards; in any case everything that existed before is unchanged and only directories on the way to the path are added; if only directories stand on the way and mkdir is permitted, it returns true.", "quantifier": "all file systems, all ways in which single calls can be refused, all paths", "why_tests_cant": "The outcome depends on what exists at each level of the path and on which call is refused; tests create a few directories in an empty place.", "anchors": ["vital/kwiversys/SystemTools.cxx:MakeDirectory", "vital/kwiversys/SystemTools.cxx:FileIsDirectory", "vital/kwiversys/SystemTools.cxx:FileExists"]}
{"id": "C186", "title": "RemoveADirectory removes the tree and nothing outside it", "statement": "Whatever happens, RemoveADirectory changes nothing outside the given directory (symbolic links inside it are not followed) and creates nothing; if it returns true, nothing is left at or below the path; it returns true if all calls are permitted.", "quantifier": "all directory trees of any depth, with symbolic links, and all ways in which calls can be refused part of the way", "why_tests_cant": "Data loss outside the tree depends on where links point and which call fails; no finite set of trees settles it.", "anchors": ["vital/kwiversys/SystemTools.cxx:RemoveADirectory", "vital/kwiversys/SystemTools.cxx:RemoveFile", "vital/kwiversys/SystemTools.cxx:FileIsSymlink"]}
{"id": "C187", "title": "CopyFileAlways copies bytes and permissions, and touches nothing else", "statement": "If CopyFileAlways returns true for a regular source file, the destination (the path, or the source's name in it if it is a directory) holds the bytes of the source and has its permissions; in any case nothing but the destination changes, except for new directories on the way; it returns true if all calls are permitted and only directories stand on the way.", "quantifier": "all file systems, all sources and destinations, all ways in which calls can be refused or writing can fail", "why_tests_cant": "Failures happen between unlink, create, write and chmod; whether the source survives when it is its own destination depends on which of them is refused.", "anchors": ["vital/kwiversys/SystemTools.cxx:CopyFileAlways", "vital/kwiversys/SystemTools.cxx:SameFile", "vital/kwiversys/SystemTools.cxx:RemoveFile"]}
{"id": "C188", "title": "CopyFileIfDifferent leaves an equal file alone and else copies", "statement": "If CopyFileIfDifferent returns true the destination holds the bytes of the source; if both are readable and hold the same bytes nothing in the file system is changed; else only the destination changes, except for new directories on the way.", "quantifier": "all file systems, all sources and destinations, all contents, all refused calls", "why_tests_cant": "The decision rests on sizes and blocks of bytes and on what stands at the destination; a wrong \"equal\" silently skips a copy.", "anchors": ["vital/kwiversys/SystemTools.cxx:CopyFileIfDifferent", "vital/kwiversys/SystemTools.cxx:FilesDiffer"]}
{"id": "C189", "title": "CopyADirectory copies the whole tree and keeps the rest", "statement": "If CopyADirectory returns true every file and directory below the source is below the destination, with the same bytes (and permissions if copied always); whatever happens, the source is unchanged, files of the destination without a counterpart are kept, and nothing outside changes except for new directories on the way; it returns true if all calls are permitted.", "quantifier": "all directory trees of any depth and width, all destinations apart from the source, all ways in which calls can be refused part of the way", "why_tests_cant": "The recursion copies an unbounded tree and can stop anywhere; which files are lost or overwritten depends on the shape of both trees.", "anchors": ["vital/kwiversys/SystemTools.cxx:CopyADirectory", "vital/kwiversys/SystemTools.cxx:CopyAFile"]}
{"id": "C190", "title": "RelativePath leads from one path to the other", "statement": "For two full paths, the text RelativePath returns, collapsed with the first path as base, is what the second path collapses to; it consists of one \"../\" for each name of the first path that is not shared, followed by the names of the second that are not shared.", "quantifier": "all pairs of full paths", "why_tests_cant": "How many names are shared, and whether one path is a prefix of the other or the root, differs for each pair; special first characters change how the result is read.", "anchors": ["vital/kwiversys/SystemTools.cxx:RelativePath", "vital/kwiversys/SystemTools.cxx:CollapseFullPath", "vital/kwiversys/SystemTools.cxx:SplitString"]}
{"id": "C191", "title": "Each standard stream of a child has exactly one configured destination", "statement": "After any sequence of configuration calls on a process object (SetPipeFile, SetPipeShared, SetPipeNative and all others, with any allocations failing), each of stdin, stdout and stderr of the child leads to at most one of file / shared / native pipe, and to the one of the last call that concerned this stream; switching a destination off affects only that kind of destination.", "quantifier": "every history of configuration calls on a new object, every stream, every pattern of failing allocations", "why_tests_cant": "the setters call each other, and a leftover of one kind only shows in a history that switches between kinds", "anchors": ["vital/kwiversys/ProcessUNIX.c:kwsysProcess_SetPipeFile", "vital/kwiversys/ProcessUNIX.c:kwsysProcess_SetPipeShared", "vital/kwiversys/ProcessUNIX.c:kwsysProcess_SetPipeNative"]}
{"id": "C192", "title": "A process object runs exactly the command lines it was given", "statement": "After any sequence of configuration calls, the command lines of a process object are exactly those AddCommand accepted since the last SetCommand, in order and argument for argument (split into words in the verbatim mode); a refused AddCommand changes no command line; timeout (never negative), working directory and options are those of the last call that set them.", "quantifier": "every history of configuration calls on a new object and every pattern of failing allocations", "why_tests_cant": "a test runs a few command lines; failure of each allocation in each state cannot be enumerated", "anchors": ["vital/kwiversys/ProcessUNIX.c:kwsysProcess_SetCommand", "vital/kwiversys/ProcessUNIX.c:kwsysProcess_AddCommand", "vital/kwiversys/ProcessUNIX.c:kwsysProcess_SetTimeout", "vital/kwiversys/ProcessUNIX.c:kwsysProcess_SetWorkingDirectory", "vital/kwiversys/ProcessUNIX.c:kwsysProcess_SetOption"]}
{"id": "C193", "title": "Deleting a process object releases all its memory, and nothing twice", "statement": "After any sequence of configuration calls, Delete leaves no block allocated by these calls, and no block is freed twice or while the object still refers to it.", "quantifier": "every history of configuration calls on a new object and every pattern of failing allocations", "why_tests_cant": "leaks and double frees appear only in particular histories and failing allocations", "anchors": ["vital/kwiversys/ProcessUNIX.c:kwsysProcess_Delete", "vital/kwiversys/ProcessUNIX.c:kwsysProcess_AddCommand", "vital/kwiversys/ProcessUNIX.c:kwsysProcess_SetPipeFile"]}
{"id": "C194", "title": "A wait ends at the earlier of the process timeout and the timeout of the call", "statement": "The deadline of a wait is the earlier of start+timeout and now+user timeout, exact to the microsecond; before it select gets exactly the time left, as a valid timeval; after it the wait has expired (a zero or negative user timeout polls); on return the user timeout has become smaller by the elapsed time, never negative.", "quantifier": "every start time, current time, process timeout and user timeout", "why_tests_cant": "the carries of the microseconds are wrong for one value in a million only", "anchors": ["vital/kwiversys/ProcessUNIX.c:kwsysProcessGetTimeoutTime", "vital/kwiversys/ProcessUNIX.c:kwsysProcessGetTimeoutLeft", "vital/kwiversys/ProcessUNIX.c:kwsysProcessTimeAdd", "vital/kwiversys/ProcessUNIX.c:kwsysProcessTimeSubtract"]}
{"id": "C195", "title": "The table of executing processes is exact and the application's signal handlers come back", "statement": "At any time the global table used by the signal handler holds exactly the objects that are executing; while it is not empty the library handles SIGCHLD, SIGINT and SIGTERM, and whenever it is empty these signals have the dispositions the application gave them.", "quantifier": "every history of objects starting and finishing, of failing allocations, and of dispositions set by the application", "why_tests_cant": "it concerns all interleavings of starts and finishes and all combinations of previous handlers", "anchors": ["vital/kwiversys/ProcessUNIX.c:kwsysProcessesAdd", "vital/kwiversys/ProcessUNIX.c:kwsysProcessesRemove", "vital/kwiversys/ProcessUNIX.c:kwsysProcessesUpdate"]}
{"id": "C196", "title": "WaitForData delivers the whole output, in order and unchanged", "statement": "The data of successive WaitForData calls for standard output (standard error), put together, is always a beginning of what the children wrote to it; when WaitForData reports that there is no more, it is everything that was written and nobody can write any more, unless the process timed out or select failed.", "quantifier": "every number of commands, every interleaving of writes, closings, exits and signals with the system calls of the object, every number of calls", "why_tests_cant": "it holds for all interleavings of the children with the reading loop", "anchors": ["vital/kwiversys/ProcessUNIX.c:kwsysProcess_WaitForData", "vital/kwiversys/ProcessUNIX.c:kwsysProcessWaitForPipe"]}
{"id": "C197", "title": "No exit of a child goes unnoticed: waiting never blocks for ever without reason", "statement": "WaitForData and WaitForExit block for ever only if a child is running, some process holds an output pipe open, or a SIGCHLD has not been handled yet; the exit of a child is never lost between the signal handler, the signal pipe and waitpid.", "quantifier": "every history of calls, every interleaving of exits, signal deliveries and the two halves of the handler with the object's system calls", "why_tests_cant": "a lost wake-up is a race; the losing schedule practically never happens in a test", "anchors": ["vital/kwiversys/ProcessUNIX.c:kwsysProcessesSignalHandler", "vital/kwiversys/ProcessUNIX.c:kwsysProcessDestroy", "vital/kwiversys/ProcessUNIX.c:kwsysProcessWaitForPipe", "vital/kwiversys/ProcessUNIX.c:kwsysProcess_WaitForExit"]}
{"id": "C198", "title": "WaitForExit reaps all children and reports how the last command ended", "statement": "When WaitForExit returns 1, every child has been reaped; without Kill, timeout and error the state is Exited with the last command's exit value, or Exception with its signal; after Kill all children are reaped, waiting cannot block and the state becomes Killed.", "quantifier": "every number of commands, every history of calls and every interleaving", "why_tests_cant": "it holds for all orders of exits, including exits during the waitpid calls for other children", "anchors": ["vital/kwiversys/ProcessUNIX.c:kwsysProcess_WaitForExit", "vital/kwiversys/ProcessUNIX.c:kwsysProcessDestroy", "vital/kwiversys/ProcessUNIX.c:kwsysProcess_Kill"]}
{"id": "C199", "title": "A waiting object closes its descriptors at the right time", "statement": "The signal handler never writes to a pipe without reader (no SIGPIPE); while the object executes its count of open pipes is exact and the notification pipe is open as long as an unreaped child needs it; afterwards all descriptors are closed and all children are reaped.", "quantifier": "every history of WaitForData, WaitForExit and Kill calls and every interleaving", "why_tests_cant": "a SIGPIPE needs a signal between the closing of the two ends", "anchors": ["vital/kwiversys/ProcessUNIX.c:kwsysProcess_Kill", "vital/kwiversys/ProcessUNIX.c:kwsysProcessClosePipes", "vital/kwiversys/ProcessUNIX.c:kwsysProcessCleanup"]}
{"id": "C200", "title": "A process object signals only its own children", "statement": "No call sends a signal to a process identifier whose process the object has already reaped.", "quantifier": "every history of WaitForData, WaitForExit and Kill calls and every interleaving", "why_tests_cant": "the identifier must have been given to another process meanwhile for the error to show", "anchors": ["vital/kwiversys/ProcessUNIX.c:kwsysProcess_Kill", "vital/kwiversys/ProcessUNIX.c:kwsysProcessDestroy"]}
{"id": "C201", "title": "The parent of a process is read correctly whatever the process is called", "statement": "When a process tree is killed, the parent of every process is read from its /proc stat file correctly for every command name of the length the kernel allows — blanks, parentheses, digits and forged fields included.", "quantifier": "every process id, parent id, command name, state letter and remaining fields", "why_tests_cant": "command names are chosen by the programs that run; tests see only a few", "anchors": ["vital/kwiversys/ProcessUNIX.c: kwsysProcessKill"]}
{"id": "C202", "title": "Killing a process kills its whole tree, and nothing else", "statement": "The kill of a child ends; afterwards the child and every process created by it or its descendants, before or during the call, is dead; no other process receives a signal.", "quantifier": "every process tree, every directory listing order with arbitrary other entries, and every schedule of forks and renames of the processes not yet stopped", "why_tests_cant": "the race between forking descendants and the scan of /proc depends on the schedule", "anchors": ["vital/kwiversys/ProcessUNIX.c: kwsysProcessKill"]}
{"id": "C203", "title": "A start that fails leaves nothing behind", "statement": "If kwsysProcess_Execute ends in the error state, at whatever system call it failed, then every descriptor of the caller other than those handed over as native pipes is as before, the signal mask and the working directory are as before, the processes already started have been killed and waited for, and the signal handlers no longer know the object.", "quantifier": "every configuration (number of commands, redirections, working directory, detached or not), every table of open descriptors and every sequence of failing calls", "why_tests_cant": "the number of failure points grows with the number of commands and redirections; each needs its own injected failure", "anchors": ["vital/kwiversys/ProcessUNIX.c: kwsysProcess_Execute", "vital/kwiversys/ProcessUNIX.c: kwsysProcessCleanup", "vital/kwiversys/ProcessUNIX.c: kwsysProcessCreate"]}
{"id": "C204", "title": "Commands of a pipeline are connected to their neighbours and to nothing else", "statement": "After a successful start of n commands, command j reads what command j-1 writes, the first reads the configured input, the last writes to the configured output, error outputs go where configured, no command has any other descriptor that the caller did not let it inherit, and the caller keeps exactly the read ends of the output pipes and its signal pipe.", "quantifier": "every number of commands, every combination of redirections, every table of open descriptors of the caller", "why_tests_cant": "descriptor numbers depend on what the caller has open; a leaked write end shows up only as a reader that never sees end of file", "anchors": ["vital/kwiversys/ProcessUNIX.c: kwsysProcess_Execute", "vital/kwiversys/ProcessUNIX.c: kwsysProcessCreate", "vital/kwiversys/ProcessUNIX.c: kwsysProcessSetupOutputPipeFile", "vital/kwiversys/ProcessUNIX.c: kwsysProcessSetupOutputPipeNative"]}
{"id": "C205", "title": "A failing start signals only processes it started", "statement": "When kwsysProcess_Execute fails, the processes it kills and waits for are exactly those it has started.", "quantifier": "every configuration and every sequence of failing calls", "why_tests_cant": "a failing fork cannot be provoked by a unit test without exhausting the system", "anchors": ["vital/kwiversys/ProcessUNIX.c: kwsysProcessCleanup", "vital/kwiversys/ProcessUNIX.c: kwsysProcessCreate", "vital/kwiversys/ProcessUNIX.c: kwsysProcessFork"]}
{"id": "C206", "title": "A successful start restores the environment of the caller", "statement": "After a successful start the recorded process numbers are those of the n new children in order, nobody has been signalled or waited for, and the signal mask and working directory of the caller are as before.", "quantifier": "every configuration, every initial state, every sequence of results of the system calls that lets the start succeed", "why_tests_cant": "all combinations of commands, redirections and kernel answers", "anchors": ["vital/kwiversys/ProcessUNIX.c: kwsysProcess_Execute", "vital/kwiversys/ProcessUNIX.c: kwsysProcessCreate"]}
{"id": "C207", "title": "Merged output: error outputs join the output of the pipeline", "statement": "With OptionMergeOutput the error output of every command goes to the place the output of the pipeline goes to.", "quantifier": "every number of commands, every redirection, every table of open descriptors", "why_tests_cant": "combinations of options, redirections and pipeline lengths", "anchors": ["vital/kwiversys/ProcessUNIX.c: kwsysProcess_Execute", "vital/kwiversys/ProcessUNIX.c: kwsysProcess_SetOption"]}
{"id": "C208", "title": "A Python image made from a PIL image shows the same pixels", "statement": "Image.from_pil of a grey (\"L\") or \"RGB\" PIL image returns an image of the same size that owns its memory, in which channel k of each pixel is band d-1-k of the PIL pixel (blue, green, red); memory that existed before keeps its content; any other mode is refused with an exception.", "quantifier": "every PIL image whose sizes fit a C int, every initial memory", "why_tests_cant": "a test covers a few small pictures; the copy through strides must be right for every size and mode", "anchors": ["vital/bindings/python/vital/types/image.py:Image.from_pil", "vital/bindings/c/types/image.cxx:vital_image_new_from_data", "vital/types/image.cxx:image::copy_from"]}
{"id": "C209", "title": "from_pil and get_pil_image undo each other", "statement": "For every PIL image that from_pil accepts, get_pil_image of the result is the PIL image again.", "quantifier": "every grey or RGB PIL image whose sizes fit a C int", "why_tests_cant": "the round trip must hold for every size and content; the existing test compares only sizes", "anchors": ["vital/bindings/python/vital/types/image.py:Image.from_pil", "vital/bindings/python/vital/types/image.py:Image.get_pil_image"]}
{"id": "C210", "title": "get_pil_image shows the pixels of the image, whatever its memory layout", "statement": "For every image of depth 1 or 3 whose pixels lie in memory, get_pil_image returns a PIL image with the same pixels and reads no memory outside of the image's.", "quantifier": "every image: any steps, also views of channels, crops and mirrored images", "why_tests_cant": "strides are data; tests use freshly allocated images only", "anchors": ["vital/bindings/python/vital/types/image.py:Image.get_pil_image"]}
{"id": "C211", "title": "Config blocks from Python behave as documented", "statement": "Every statement on ConfigBlock objects (constructor, name, subblock, subblock_view, get_value, get_value_bool, get_description, set_value, unset_value, is_read_only, mark_read_only, merge_config, has_value, available_keys, as_dict, garbage collection) has the documented result and the effect of the corresponding C++ calls, in any program; and all strings, lists and error handles that the C side allocates for it are freed.", "quantifier": "every program over any number of ConfigBlock objects, every order of garbage collection, every legal allocator behaviour", "why_tests_cant": "aliasing between views, blocks and reused addresses depends on the history; memory leaks and one-byte overruns do not show in results", "anchors": ["vital/bindings/python/vital/config_block.py:ConfigBlock", "vital/bindings/python/vital/util/error_handle.py:VitalErrorHandle", "vital/bindings/c/config_block.cxx", "vital/bindings/c/helpers/c_utils.h"]}
{"id": "C212", "title": "The exact outcome of every Python program over config blocks", "statement": "In every program each statement has the documented effect on the blocks, and the documented result except: name of an object without a block and get_description of a missing key raise ValueError (NULL pointer access); get_value_bool whose exception text, and available_keys or as_dict with a key, that fills its heap block writes past the end of it. Nothing leaks, also when a statement raises; each live object's handle names its own block.", "quantifier": "every program, every order of garbage collection, every legal allocator behaviour, every malloc granularity", "why_tests_cant": "the faults depend on the history and on the lengths of texts", "anchors": ["vital/bindings/python/vital/config_block.py:ConfigBlock", "vital/bindings/c/helpers/c_utils.h:POPULATE_EH", "vital/bindings/c/helpers/c_utils.cxx:make_string_list"]}
{"id": "C213", "title": "Listing the keys corrupts the heap for keys of certain lengths", "statement": "With glibc's malloc on a 64 bit machine, available_keys and as_dict write past the end of a heap block exactly when some key of the block has 24, 40, 56, ... characters.", "quantifier": "every block, every set of keys", "why_tests_cant": "a silent overrun; tests use short keys only", "anchors": ["vital/bindings/c/helpers/c_utils.cxx:make_string_list", "vital/bindings/python/vital/config_block.py:ConfigBlock.available_keys"]}
{"id": "C214", "title": "Python algorithm objects behave as C++ shared pointers", "statement": "Every Python program over algorithm objects (constructor, create, from_c_pointer shallow copies, name, set_name, impl_name, clone, get_config, set_config, check_config, garbage collection) has the results and effects of the C++ program in which each original is a shared pointer and each shallow copy another name for it: exceptions of the library arrive as VitalBaseException with its text, an empty name raises ValueError and changes nothing, an unknown implementation raises VitalNullPointerException. It is undefined only where the C++ program is or where the text of an exception fills its heap block. The name of an object is never empty.", "quantifier": "every program, every order of garbage collection, every allocator address choice, every plugin library and interleaved use by other code, every malloc granularity", "why_tests_cant": "ownership of handles depends on the whole history of copies, reconfigurations and collections", "anchors": ["vital/bindings/python/vital/algo/algorithm.py:VitalAlgorithm", "vital/bindings/python/vital/util/VitalObject.py:VitalObject", "vital/bindings/c/algo_def", "vital/bindings/c/algorithm.h:DEFINE_COMMON_ALGO_API"]}
{"id": "C215", "title": "Python algorithm objects neither leak nor dangle", "statement": "After any Python program the C side keeps exactly the algorithms that some Python object stands for: every initialised object has a handle that the C interface accepts, for an algorithm of its type, and every handle that it accepts belongs to some object; in particular nothing is kept once all objects are collected, also when create or clone raised.", "quantifier": "every program, every order of garbage collection, every allocator address choice", "why_tests_cant": "a leak or a dead handle shows only for particular histories", "anchors": ["vital/bindings/python/vital/algo/algorithm.py:VitalAlgorithm._destroy", "vital/bindings/python/vital/algo/algorithm.py:VitalAlgorithm.set_config", "vital/bindings/python/vital/algo/algorithm.py:VitalAlgorithm.from_c_pointer"]}
{"id": "C216", "title": "A shallow copy of a Python algorithm follows reconfiguration", "statement": "After any program a shallow copy and its original are the same algorithm, whichever of the two was configured since: they hold the same handle, report the same implementation name and clone to the same algorithm.", "quantifier": "every program, every pair of original and copy", "why_tests_cant": "set_config may replace the algorithm instance at any time through either object", "anchors": ["vital/bindings/python/vital/algo/algorithm.py:VitalAlgorithm.from_c_pointer", "vital/bindings/python/vital/algo/algorithm.py:VitalAlgorithm.set_config"]}
{"id": "C217", "title": "The $SYSENV names have the values of the machine and no other name has one", "statement": "On a Linux machine described by /proc/cpuinfo, /proc/meminfo, uname and the names of its addresses, a token $SYSENV{name} yields exactly: cwd, the number of processors, total/available physical and virtual memory in MiB, hostname, the first address name that contains the host name and is longer (else the host name) as domainname, osname, osdescription \"name release version\", osplatform, osversion, and TRUE/FALSE for is64bits, iswindows, islinux, isapple; every other name is unknown. The provider can be constructed for every machine whose /proc/cpuinfo is not an empty file (and a machine whose file is empty makes every configuration read fail with std::length_error).", "quantifier": "every machine description (any number of processors, lines, amounts, addresses), every name", "why_tests_cant": "a test sees the one machine it runs on", "anchors": ["vital/config/token_type_sysenv.cxx:lookup_entry", "vital/kwiversys/SystemInformation.cxx:GetFullyQualifiedDomainName", "vital/kwiversys/SystemInformation.cxx:QueryOSInformation"]}
{"id": "C218", "title": "A key of /proc/cpuinfo is looked up by its exact name", "statement": "The value found for a key is the text after the colon and one blank of the first line that has exactly this key, and is empty when there is none; it is not taken from other keys, values or lines.", "quantifier": "every list of lines in the format key, blanks, colon, value, and every key", "why_tests_cant": "one machine has one cpuinfo file", "anchors": ["vital/kwiversys/SystemInformation.cxx:ExtractValueFromCpuInfoFile"]}
{"id": "C219", "title": "The number of logical processors is the number of processor lines", "statement": "For every file in Linux's format, the number of logical CPUs reported is the number of lines with the key \"processor\"; setting up fails with an exception exactly for an empty file.", "quantifier": "every cpuinfo file", "why_tests_cant": "one machine has one cpuinfo file", "anchors": ["vital/kwiversys/SystemInformation.cxx:RetreiveInformationFromCpuInfoFile"]}
{"id": "C220", "title": "The number of physical CPUs is packages times cores", "statement": "On a machine whose packages are numbered from 0 and have the same number of cores, the number of physical CPUs reported is packages times cores.", "quantifier": "every number of packages and cores, every arrangement of the lines", "why_tests_cant": "one machine has one cpuinfo file", "anchors": ["vital/kwiversys/SystemInformation.cxx:RetreiveInformationFromCpuInfoFile"]}
{"id": "C221", "title": "A processor feature is reported exactly if it is one of the flags", "statement": "A feature name is reported as present if and only if it is one of the blank-separated words of the flags line (not part of a word).", "quantifier": "every cpuinfo file, list of flags and feature name", "why_tests_cant": "one machine has one set of flags", "anchors": ["vital/kwiversys/SystemInformation.cxx:RetreiveInformationFromCpuInfoFile"]}
{"id": "C222", "title": "Memory amounts are those of /proc/meminfo in MiB for every kernel", "statement": "For every kernel since 2.6, total, available (free + buffers + cached), total swap and free swap are the amounts of the first lines with those names divided by 1024; for kernels 2.0-2.5 they are those of the old format divided by 2^20.", "quantifier": "every kernel release and meminfo file", "why_tests_cant": "one machine has one kernel", "anchors": ["vital/kwiversys/SystemInformation.cxx:QueryLinuxMemory"]}
{"id": "C223", "title": "The tracking tool tracks the frames of its lists in order", "statement": "After a configuration that validates, the tool ends without False and without an exception exactly if the output file can be made and all images of the list can be loaded, converted and tracked in list order, image i with mask i and with frame number i, and there are tracks to write; the output file then holds the text of the resulting track set, and no other file is changed in any case.", "quantifier": "every tool configuration, every content of the list files (any number of lines, white space, with or without final newline), every behaviour of the algorithms and of the file system", "why_tests_cant": "tests run one short list with one tracker; the order, numbering and pairing must hold for every list and tracker", "anchors": ["vital/bindings/python/vital/bin/maptk_track_features.py: TrackFeaturesTool.track_images", "vital/bindings/python/vital/bin/maptk_track_features.py: validate_configuration"]}
{"id": "C224", "title": "The exit code of the tracking tool tells success", "statement": "The program exits with 0 if and only if the configuration validates, all frames are tracked and the tracks are written.", "quantifier": "every configuration, list file, behaviour of the algorithms and file system", "why_tests_cant": "exit codes have to be right for every failure point, not the few a test provokes", "anchors": ["vital/bindings/python/vital/bin/maptk_track_features.py: cli_main", "vital/bindings/python/vital/bin/maptk_track_features.py: track_images"]}
{"id": "C225", "title": "A failing run of the tracking tool keeps the previous output file", "statement": "When a run of the tool does not succeed, the output file of an earlier run is as it was.", "quantifier": "every configuration, file content, and every point at which loading, converting, tracking or writing fails", "why_tests_cant": "the failure may happen at any frame of any list", "anchors": ["vital/bindings/python/vital/bin/maptk_track_features.py: track_images"]}
{"id": "C226", "title": "A tool given another tool's configuration has its settings", "statement": "A tool that is given the configuration block produced by another tool has the same image list, mask list, mask flags and output path, whatever it was configured with before.", "quantifier": "every history of configurations of both tools, every current directory and home directory, every additional entries of the algorithms", "why_tests_cant": "the round trip must hold for all paths (normalisation, .., //, ~) and histories", "anchors": ["vital/bindings/python/vital/bin/maptk_track_features.py: get_configuration", "vital/bindings/python/vital/bin/maptk_track_features.py: set_configuration"]}
{"id": "C227", "title": "The mask settings of the tracking tool take effect", "statement": "With invert_masks, features are tracked with the inverted masks.", "quantifier": "every list of images and masks, tracker and inversion", "why_tests_cant": "needs a comparison over all masks and trackers", "anchors": ["vital/bindings/python/vital/bin/maptk_track_features.py: track_images", "vital/bindings/python/vital/bin/maptk_track_features.py: get_configuration"]}
{"id": "C228", "title": "Path translations set up before main never change the file a path means", "statement": "For every directory tree with symbolic links, environment and working directory, the translation table the library sets up before main (keep /tmp, keep the logical form of PWD) never changes what an absolute path leads to: the translated path leads to the same place, or both lead nowhere.", "quantifier": "all trees with links, all values of PWD and working directories, all later AddKeepPath calls, all paths", "why_tests_cant": "Depends on link structures and environments that tests do not set up, and every path of every program goes through the table.", "anchors": ["vital/kwiversys/SystemTools.cxx: AddTranslationPath", "vital/kwiversys/SystemTools.cxx: AddKeepPath", "vital/kwiversys/SystemTools.cxx: CheckTranslationPath", "vital/kwiversys/SystemTools.cxx: ClassInitialize"]}
{"id": "C229", "title": "Collapsed paths are canonical and stay the same when collapsed again, also with translations", "statement": "With the translations set up before main, a collapsed path has no empty, \".\" or \"..\" component and collapsing it again changes nothing.", "quantifier": "all trees, environments and paths", "why_tests_cant": "The result depends on the table, i.e. on the environment of the process; tests run in one environment.", "anchors": ["vital/kwiversys/SystemTools.cxx: CheckTranslationPath", "vital/kwiversys/SystemTools.cxx: CollapseFullPath", "vital/kwiversys/SystemTools.cxx: ClassInitialize"]}
{"id": "C230", "title": "Setting up the path translations ends", "statement": "For every tree, environment and working directory the initialisation before main comes to an end.", "quantifier": "all trees, values of PWD and working directories", "why_tests_cant": "A loop that does not end in one environment cannot be excluded by running in others.", "anchors": ["vital/kwiversys/SystemTools.cxx: ClassInitialize", "vital/kwiversys/SystemTools.cxx: GetFilenamePath"]}
{"id": "C231", "title": "The environment holds what the last call left", "statement": "After any sequence of PutEnv and UnPutEnv calls, GetEnv(name) gives the value of the last PutEnv(\"name=value\"), nothing if the last call for this name was UnPutEnv or PutEnv without '=', and the inherited value if no call spoke of the name; calls for other names, even with a common prefix, change nothing.", "quantifier": "all inherited environments (also with duplicate entries), all histories of calls, all names and values", "why_tests_cant": "Depends on the whole history of calls and on the inherited environment.", "anchors": ["vital/kwiversys/SystemTools.cxx: PutEnv", "vital/kwiversys/SystemTools.cxx: UnPutEnv", "vital/kwiversys/SystemTools.cxx: GetEnv"]}
{"id": "C232", "title": "Removing a variable works the same on every platform", "statement": "The three implementations of removing an environment variable (unsetenv, putenv of the bare name, editing environ) leave the same environment.", "quantifier": "all environments and all argument strings", "why_tests_cant": "One build contains only one of them; tests never compare.", "anchors": ["vital/kwiversys/SystemTools.cxx: kwsysUnPutEnv"]}
{"id": "C233", "title": "The order of kept environment strings is a strict weak order", "statement": "The comparison that the set of kept environment strings uses is irreflexive and transitive, and so is being equal, on all strings PutEnv accepts.", "quantifier": "all triples of strings", "why_tests_cant": "std::set is undefined otherwise; three-way properties of a comparison are over all strings.", "anchors": ["vital/kwiversys/SystemTools.cxx: kwsysEnvCompare"]}
{"id": "C234", "title": "The environment never points to freed memory", "statement": "On platforms without setenv, after any history of PutEnv and UnPutEnv calls and also after static destruction, no entry of environ points to a block the library freed, and no block is freed twice.", "quantifier": "all inherited environments, all histories of calls, all lookups the set may make", "why_tests_cant": "Use after free shows only when somebody reads the entry later.", "anchors": ["vital/kwiversys/SystemTools.cxx: kwsysEnv", "vital/kwiversys/SystemTools.cxx: Release"]}
{"id": "C235", "title": "Split divides any text into its lines", "statement": "SystemTools::Split(text, lines) appends exactly the lines of the text to lines, where a line ends in \"\\n\" or \"\\r\\n\" and the terminator is not part of the line; it returns true exactly if the last line was terminated (or the text is empty). The decomposition is unique, so no byte of the text is lost or invented.", "quantifier": "for every text and every list of lines already present", "why_tests_cant": "texts of any length with any mixture of \\n, \\r and \\r\\n; the loop over find_first_of positions must be right for all of them", "anchors": ["vital/kwiversys/SystemTools.cxx:Split"]}
{"id": "C236", "title": "FileHasSignature tells whether the bytes are at the offset", "statement": "FileHasSignature(file, signature, offset) is true exactly if the bytes of the signature stand at that offset of the file. (False of the code: a negative offset is ignored and the start of the file is read; the empty signature is found beyond the end.)", "quantifier": "for every file content, signature without NUL and offset", "why_tests_cant": "unboundedly many contents, signatures and offsets", "anchors": ["vital/kwiversys/SystemTools.cxx:FileHasSignature"]}
{"id": "C237", "title": "DetectFileType decides by the fraction of textual bytes", "statement": "DetectFileType(file, length, percent_bin) answers binary if more than percent_bin of the first length bytes are not textual (0x20-0x7E, newline, carriage return, tab), text otherwise, and unknown exactly if percent_bin is negative, the name is a directory, or nothing can be read. (False of the code for byte 0x7F, which counts as text, and at the exact threshold, which counts as binary.)", "quantifier": "for every content, length and threshold", "why_tests_cant": "all contents and thresholds, including the exact boundary", "anchors": ["vital/kwiversys/SystemTools.cxx:DetectFileType", "vital/kwiversys/SystemTools.hxx.in:DetectFileType"]}
{"id": "C238", "title": "LocateFileInDir looks in the documented directories only, in order", "statement": "For foo/bar/bill.txt and a directory dir, LocateFileInDir with try_filename_dirs gives the first existing one of dir/bill.txt, dir/bar/bill.txt, dir/foo/bar/bill.txt (and so on), and nothing if none exists; it always ends. (False of the code: when dir/foo/bar is not a directory it looks in dir/foo instead, so /d/foo/yo is found for foo/bar/yo.)", "quantifier": "for every file system, every directory and every depth of the file name", "why_tests_cant": "all directory trees and all depths; termination of the loop", "anchors": ["vital/kwiversys/SystemTools.cxx:LocateFileInDir", "vital/kwiversys/SystemTools.hxx.in:LocateFileInDir"]}
{"id": "C239", "title": "SplitProgramPath and GetProgramPath lead back to the program", "statement": "For the path of a program, SplitProgramPath gives the directory it is in and its file name, and joining them leads back to the program. (False of the code for a program in the root directory: \"/prog\" gives the empty directory.)", "quantifier": "for every absolute or relative path of any depth and every file system", "why_tests_cant": "all depths of paths and all file systems", "anchors": ["vital/kwiversys/SystemTools.cxx:SplitProgramPath", "vital/kwiversys/SystemTools.cxx:GetProgramPath"]}
{"id": "C240", "title": "FindProgramPath gives the first existing place", "statement": "FindProgramPath(argv0, ..., exeName, buildDir, installPrefix) gives the first existing one of the program found for argv0, buildDir/bin/./exeName and installPrefix/bin/exeName, and fails with a message that lists the attempted places exactly if none exists, whichever of the pointers are null. (False of the code: exeName null, its default, with buildDir or installPrefix given is undefined behaviour.)", "quantifier": "for every file system and all arguments, null or not", "why_tests_cant": "all combinations of null pointers, environments and file systems", "anchors": ["vital/kwiversys/SystemTools.cxx:FindProgramPath"]}
{"id": "C241", "title": "FileTimeCompare orders files by modification time", "statement": "FileTimeCompare succeeds exactly if both files exist; its result is the sign of the difference of the modification times including nanoseconds, so it is antisymmetric and transitive.", "quantifier": "for every pair or triple of files with any modification times", "why_tests_cant": "all time stamps, including equal seconds and times before 1970; order laws relate several calls", "anchors": ["vital/kwiversys/SystemTools.cxx:FileTimeCompare"]}
{"id": "C242", "title": "The module path is the file mapped where the caller's code is", "statement": "wai_getModulePath (used by get_module_path) resolves the path of the file that /proc/self/maps shows at the caller's address, and reports nothing (after five attempts) exactly when no file is mapped there. (False of the code: a path with a blank is cut at the blank, and an address equal to the end of one mapping is taken for that mapping although it is the first one of the next.)", "quantifier": "for every list of mappings in kernel format, every address, every file system and every sequence of file contents seen by the attempts", "why_tests_cant": "unboundedly many memory maps, paths and addresses; the text is scanned with sscanf and fgets", "anchors": ["vital/util/whereami.c:getModulePath", "vital/util/get_paths.cxx:get_module_path"]}
{"id": "C243", "title": "The Python package searches for the C library upwards as documented", "statement": "_search_up_directory(d, re) ends for every directory and returns the first matching library in lib64 and lib of d and of each directory above d, or None if there is none up to the root. (False of the code: the first directory that has a lib64 or lib directory at all ends the search, even if the library is only in a directory above it.)", "quantifier": "for every directory tree, every listing order, every depth and every name predicate", "why_tests_cant": "all directory trees and depths; termination at the root", "anchors": ["vital/bindings/python/vital/util/find_vital_library.py.in:_search_up_directory"]}
{"id": "C244", "title": "Only the library's own names are taken for the library", "statement": "A file is taken for the vital_c library exactly if it is called [lib]vital_c.so, .dylib or .dll, possibly followed by a version. (False of the code: the dot in the expression stands for any character and anything may follow, so vital_c_source.zip is loaded as the library.)", "quantifier": "for every file name", "why_tests_cant": "all file names", "anchors": ["vital/bindings/python/vital/util/find_vital_library.py.in:__LIBRARY_NAME_RE__"]}
{"id": "C245", "title": "The library search uses build directory, package directory and LD_LIBRARY_PATH, in this order, whatever the environment", "statement": "_find_vital_library_path searches the build directory, the package's directory and the parts of LD_LIBRARY_PATH in this order, returns the first library found and raises RuntimeError exactly if there is none, whether or not LD_LIBRARY_PATH is set. (False of the code: without LD_LIBRARY_PATH it raises KeyError without searching.)", "quantifier": "for every environment and every directory tree", "why_tests_cant": "all environments, including absent variables and empty parts", "anchors": ["vital/bindings/python/vital/util/find_vital_library.py.in:_find_vital_library_path"]}
{"id": "C246", "title": "One library for the whole run, and failures are not remembered", "statement": "In any sequence of calls with the directories and the environment changing in between, every call before the first success gives what a first call would give, and every call after it gives the library of the first success.", "quantifier": "for every history of calls and circumstances", "why_tests_cant": "histories of any length", "anchors": ["vital/bindings/python/vital/util/find_vital_library.py.in:_find_vital_library_path"]}
{"id": "C247", "title": "auto_ptr: one owner, no double delete, no leak", "statement": "In every program that hands kwsys auto_ptr variables only null or pointers it owns itself, each object is at every moment owned by exactly one variable or by the caller (or deleted): copying and assigning move the object, assigning a variable to itself or resetting it to the pointer it holds changes nothing, assigning/resetting/destroying deletes exactly what was held; nothing is deleted twice, no deleted object is used, release returns the object held, and when all variables are gone and the caller owns nothing, no object exists.", "quantifier": "All finite sequences of new, construct, copy, assign, release, reset, destroy, dereference and raw delete over any number of variables and objects.", "why_tests_cant": "Ownership errors depend on the whole history of transfers between arbitrarily many variables; tests run a handful of them.", "anchors": ["vital/kwiversys/auto_ptr.hxx.in", "auto_ptr::release", "auto_ptr::reset", "auto_ptr::operator=", "auto_ptr::~auto_ptr"]}
{"id": "C248", "title": "C handles keep exactly the needed tracks, cameras and sets alive", "statement": "Through the C interface, a track or camera exists exactly as long as the program holds an undestroyed handle to it or to a track set or camera map that contains it; a set or map exists exactly as long as the program holds a handle to it (each time it was returned counts once); a live handle always leads to the object it was given for, even when addresses of destroyed objects are reused; no call touches a destroyed object, destroying a stale or unknown handle does nothing, and after all handles are destroyed nothing is left.", "quantifier": "All finite sequences of new, destroy, use, set/map construction from handles, get_map, sets returned by algorithms (new, extended or the same) and all address choices of the allocator that do not collide with existing objects.", "why_tests_cant": "Use-after-free, double free and leaks depend on the order of all calls so far and on address reuse by the allocator.", "anchors": ["vital/bindings/c/track.cxx", "vital/bindings/c/track_set.cxx", "vital/bindings/c/camera.cxx", "vital/bindings/c/camera_map.cxx", "vital/bindings/c/algo_def/track_features.cxx", "vital/bindings/c/helpers/c_utils.h SharedPointerCache"]}
{"id": "C249", "title": "Converting features and landmarks keeps every attribute", "statement": "The feature_<T> (landmark_<T>) made from any feature (landmark) through the base class has the location, magnitude, scale, angle or normal, colour, observations and covariance of the original, each number rounded once to T; an object read through the base class and made again in its own number type is the same; a clone reports the same through every function.", "quantifier": "All features and landmarks of either number type, all values.", "why_tests_cant": "A forgotten attribute shows only for objects that have a value in it other than the default, and tests compare a few attributes of a few objects.", "anchors": ["vital/types/feature.cxx feature_(feature const&)", "vital/types/landmark.cxx landmark_(landmark const&)", "vital/types/landmark.h clone", "vital/types/covariance.h"]}
{"id": "C250", "title": "Attributes of features and landmarks are independent", "statement": "After any history of setter calls on a feature or landmark, every getter returns the value last set for that attribute, or the value the object had before if it was never set.", "quantifier": "All finite sequences of setter calls with all values.", "why_tests_cant": "An aliasing or copy-paste error between attributes shows only in certain orders of calls.", "anchors": ["vital/types/feature.h set_loc, set_magnitude, set_scale, set_angle, set_covar, set_color", "vital/types/landmark.h set_loc, set_scale, set_normal, set_covar, set_color, set_observations"]}
{"id": "C251", "title": "A camera always has intrinsics; which cameras share them", "statement": "Whatever pointers, null included, are passed for the intrinsics, every simple_camera has intrinsics at all times; a camera constructed from an intrinsics reference, or with null or no intrinsics, has its own object, which no change to any other object affects; a copy, clone or camera made from a base-class camera shares the intrinsics of the original until one of them is given others.", "quantifier": "All finite sequences of creating and changing intrinsics, constructing, copying and cloning cameras and setting intrinsics.", "why_tests_cant": "Sharing is visible only through later changes made anywhere in the program; the property ranges over all such histories.", "anchors": ["vital/types/camera.h simple_camera", "simple_camera::clone", "simple_camera::set_intrinsics"]}
{"id": "C252", "title": "There always is a logger factory, and the right one", "statement": "When logging starts, the factory is the one provided by the library named in VITAL_LOGGER_FACTORY (the default plugin library if the variable is not set); if that library cannot be found or has no entry function it is the built-in one; an error is reported exactly when the variable named a library that could not be used.", "quantifier": "All values of the environment variable and all libraries the loader may find.", "why_tests_cant": "The outcome depends on the environment of the process and the installed libraries; tests see one of them.", "anchors": ["vital/logger/kwiver_logger_manager.cxx kwiver_logger_manager()", "kwiver_logger_manager::load_factory"]}
{"id": "C253", "title": "A logger knows its name and the factory that made it", "statement": "A logger is made by the factory installed when it was requested, and for as long as it exists reports its own name and the name of that factory, whatever factories are installed later and also when the program destroys a factory it got back.", "quantifier": "All histories of creating, installing and destroying factories, requesting loggers and asking for names.", "why_tests_cant": "The factory may be replaced between any two calls; a dangling pointer shows only in some histories.", "anchors": ["vital/logger/kwiver_logger_manager.cxx get_logger, set_logger_factory, get_factory_name", "vital/logger/kwiver_logger.cxx get_name, get_factory_name"]}
{"id": "C254", "title": "An exception's message holds everything its thrower gave", "statement": "For every exception of the library constructed from texts without NUL characters, every text and every number given to the constructor occurs in what(). what() is always a text without NUL that begins the text the constructor made: a NUL in an argument hides all that follows it. The exception is config_block_io_exception thrown as itself, whose message is empty whatever it was given.", "quantifier": "all exception classes of vital/exceptions and config_block_exception, all argument texts and sizes", "why_tests_cant": "Tests look at the messages of a few literal keys and paths; the claim is about arbitrary texts, including quotes, format characters and NULs.", "anchors": ["vital/exceptions/base.cxx what", "vital/exceptions/io.cxx", "vital/exceptions/algorithm.cxx", "vital/exceptions/math.cxx", "vital/exceptions/image.cxx", "vital/config/config_block_exception.cxx"]}
{"id": "C255", "title": "The arguments of an exception can be read back from its message", "statement": "Two exceptions of the same class with the same message were given the same texts and numbers, provided the texts that stand before a closing mark (a quote, a colon) do not contain that mark. For classes with one argument and for the image size mismatch no such condition is needed. Without it a message can mean two things: quotes in keys, values and paths are not escaped.", "quantifier": "all pairs of exceptions of one class", "why_tests_cant": "An injectivity claim over all pairs of argument tuples.", "anchors": ["vital/exceptions/io.cxx", "vital/exceptions/algorithm.cxx", "vital/exceptions/image.cxx image_size_mismatch_exception", "vital/config/config_block_exception.cxx"]}
{"id": "C256", "title": "The class of an exception can be told from its message", "statement": "Exceptions of different classes never have the same message, whatever NUL-free texts they were given, except for classes whose message is empty or starts with the thrower's own text, and for three pairs of classes that use the same phrases (the two cast failures with a key, config_file_not_read and file_not_read, config_file_write and file_write), which do coincide.", "quantifier": "all pairs of exceptions of different classes and all their arguments", "why_tests_cant": "A disjointness claim over all argument texts; a crafted key could imitate another class's phrase.", "anchors": ["vital/exceptions/io.cxx", "vital/exceptions/base.cxx", "vital/exceptions/algorithm.cxx", "vital/exceptions/math.cxx", "vital/config/config_block_exception.cxx"]}
{"id": "C257", "title": "A Python camera map has all cameras of the dictionary it is made from", "statement": "CameraMap(d) for a dictionary of frame numbers and cameras with live handles has exactly len(d) entries, each camera at its frame; with a destroyed or NULL camera the constructor raises and nothing is created. (The code takes frames modulo 2^32 without a check: frames that are negative or too large move, and two of them can end in one entry. What holds in general: one entry per frame modulo 2^32.)", "quantifier": "all dictionaries, all states of the camera cache", "why_tests_cant": "The failure needs frame numbers outside 0..2^32-1, and the claim is about all dictionaries and iteration orders.", "anchors": ["vital/bindings/python/vital/camera_map.py CameraMap.__init__, size", "vital/bindings/c/camera_map.cxx vital_camera_map_new, vital_camera_map_size"]}
{"id": "C258", "title": "Setting permissions while honouring the umask leaves the umask alone", "statement": "SetPermissions with honor_umask gives each file the asked mode without the bits of the process umask; once all calls have returned the umask is what it was; and a file that any thread creates meanwhile has the umask applied.", "quantifier": "every umask, every set of files and modes, every number of threads and every interleaving of their calls and of creations of files", "why_tests_cant": "The umask is changed to 0 and put back; only particular interleavings of threads show a lost umask, and tests run one thread.", "anchors": ["vital/kwiversys/SystemTools.cxx: SetPermissions"]}
{"id": "C259", "title": "When Touch says true the file was touched", "statement": "When Touch returns true, the file existed and its modification time is now the current time, or it was made as an empty file (with create), or there was none and none was asked for; contents, access times and all other files stay as they are; when it returns false nothing has changed.", "quantifier": "every file system, every combination of permissions, every name, with and without create", "why_tests_cant": "Permissions, directories and missing files combine; existence is asked through a test of readability, which tests run as owner do not distinguish.", "anchors": ["vital/kwiversys/SystemTools.cxx: Touch, FileExists"]}
{"id": "C260", "title": "Homographies and epipolar matrices mean the same through clones and conversions", "statement": "Whatever clones, copies and conversions between float and double are made of a homography or fundamental matrix, matrix() and map() of the last object answer with the matrix of the first, exactly if no conversion to float was made and with each entry rounded once otherwise; a float object comes back as it was; for essential matrices the same holds of rotation() and translation().", "quantifier": "every object of either number type, every sequence of clones, copies and conversions, every point", "why_tests_cant": "Sequences of conversions of any length; the two classes specialise the functions separately, so one specialisation can go wrong unseen.", "anchors": ["vital/types/homography.cxx: homography_, matrix, map, clone", "vital/types/fundamental_matrix.cxx: fundamental_matrix_, matrix, clone", "vital/types/essential_matrix.cxx: essential_matrix_, rotation, translation"]}
{"id": "C261", "title": "With log4cxx, levels and messages mean what vital's levels say", "statement": "With the log4cxx backend, set_level through any handle sets the level that get_level answers and that decides which of the is_..._enabled functions answer true for all handles of the name; get_level always tells which messages go through; a message is written once, with its level, text and place, exactly if its level is enabled; no call goes through a null pointer.", "quantifier": "every hierarchy of logger names and levels, every sequence of set_level and log calls on any handles, every message and location", "why_tests_cant": "Levels are inherited along a hierarchy that depends on the history of calls; the adapter has six separate mappings.", "anchors": ["vital/logger/log4cxx_factory.cxx: set_level, get_level, log_message, log_fatal, is_fatal_enabled"]}
{"id": "C262", "title": "Narrow and wide strings convert without loss", "statement": "ToWide and ToNarrow give the whole conversion of the string up to its first NUL in the encoding of the locale, or the empty string for a null pointer or where there is none; a valid string without NUL converted to wide and back is as it was; DupToNarrow gives a terminated copy that fills its block exactly, or null.", "quantifier": "every encoding, every string, every result of malloc", "why_tests_cant": "The size is computed with an overflowing addition and the buffer filled by a bounded conversion; all lengths and all invalid strings matter.", "anchors": ["vital/kwiversys/EncodingCXX.cxx: ToWide, ToNarrow", "vital/kwiversys/EncodingC.c: kwsysEncoding_DupToNarrow"]}
{"id": "C263", "title": "Command line arguments are owned copies that end with a null pointer", "statement": "Whatever Encoding::CommandLineArguments objects are made, copied, assigned (also to themselves) and destroyed, no memory is used or freed twice, each object's argv() keeps the strings it was given, nothing is left allocated when no object is left; argv() has argc() strings followed by one null pointer.", "quantifier": "every history of constructions, copies, assignments and destructions over any number of objects and arguments", "why_tests_cant": "Ownership errors need particular orders of copies, assignments and destructions, and show only as memory corruption.", "anchors": ["vital/kwiversys/EncodingCXX.cxx: CommandLineArguments, operator=, argc, argv"]}
{"id": "C264", "title": "Code that includes SystemTools always finds its table", "statement": "In whatever order translation units that include SystemTools are initialised and ended - static objects in any link order, libraries loaded and unloaded at any time - their code always finds the table of path translations, holding the initial entries and all that was added since the first of them was loaded; the table is never deleted twice.", "quantifier": "every history of loading, unloading and use by any number of units; every link order and every constructor and destructor of static objects", "why_tests_cant": "The order of initialisation across translation units is not specified, and a build shows one order only.", "anchors": ["vital/kwiversys/SystemTools.cxx: SystemToolsManager, ClassFinalize", "vital/kwiversys/SystemTools.hxx.in: SystemToolsManagerInstance"]}
{"id": "C265", "title": "The width of the terminal", "statement": "GetTerminalWidth is the number in COLUMNS if that is a decimal number from 9 to 999; else the width of the terminal if standard output is one that has a size; it is -1 or at least 9.", "quantifier": "every content of COLUMNS, every answer of the system about the terminal", "why_tests_cant": "The text of a variable is arbitrary: signs, blanks, prefixes of other bases, overflow; tests have one terminal.", "anchors": ["vital/kwiversys/SystemTools.cxx: GetTerminalWidth"]}
{"id": "C266", "title": "Symbolic links read back as they were made", "statement": "When CreateSymlink says true the name was free, ReadSymlink of it gives the text given up to its first NUL, and no other name changes; when false nothing has changed; ReadSymlink says true exactly for links, gives the whole text, and else leaves its argument as it was; an existing link is never overwritten.", "quantifier": "every file system, every text and name, every history of links made and removed", "why_tests_cant": "Texts of all lengths up to the limit of the system go through a buffer of fixed size.", "anchors": ["vital/kwiversys/SystemTools.cxx: CreateSymlink, ReadSymlink"]}
{"id": "C267", "title": "The working directory is reported as it is", "statement": "After any calls of ChangeDirectory, GetCurrentWorkingDirectory gives the absolute path of the directory they led to, collapsed or not; ChangeDirectory returns 0 exactly if the directory can be reached and else leaves the working directory.", "quantifier": "every tree of directories, every history of ChangeDirectory calls", "why_tests_cant": "Depth and characters of names are unbounded; the path goes through a buffer of fixed size and through the path functions.", "anchors": ["vital/kwiversys/SystemTools.cxx: ChangeDirectory, GetCurrentWorkingDirectory"]}
{"id": "C268", "title": "A Python program drives the plugin manager like the same C++ calls", "statement": "For every Python program of register_plugins, add_search_path and registered_module_names, the manager ends in the state that the same C++ calls produce, every registered_module_names gives the manager's module names, and no memory allocated by the C side for Python stays behind. (False of the code: the list of names is written one byte past each block, so the call is undefined when a block has no spare byte - with glibc exactly for names of 24, 40, 56, ... characters; and a name that is empty or starts with NUL loads all plugins.)", "quantifier": "all programs, all file systems at each call, all allocators, all registered names", "why_tests_cant": "The overflow depends on the allocator and on the length of the names, and the claim is about all histories.", "anchors": ["vital/bindings/python/vital/apm.py AlgorithmPluginManager", "vital/bindings/c/algorithm_plugin_manager.cxx vital_apm_register_plugins, vital_apm_register_single_plugin, vital_apm_add_search_path, vital_apm_registered_module_names", "vital/bindings/c/helpers/c_utils.cxx make_string_list"]}
{"id": "C269", "title": "plugin_explorer prints exactly what the manager has loaded", "statement": "For every command line made of its options, plugin_explorer loads the plugins of the name given last (all when none is given) with the given directories added to the search path in order, prints exactly the search path, the modules and the registered implementations, with --detail also every configuration entry of every implementation, and exits with 0; with --help it prints the help and loads nothing; any other command line is refused with a message and nothing is loaded. (False of the code for --detail when a registered name has not exactly one colon: a null pointer or a missing token is used.)", "quantifier": "all command lines, file systems, plugins, registered names and configurations", "why_tests_cant": "The set of command lines is infinite and the failure needs a plugin with an unusual implementation name.", "anchors": ["vital/tools/plugin_explorer.cxx main, print_config, detailed_algo", "vital/algorithm_plugin_manager.cxx", "vital/kwiversys/CommandLineArguments.cxx Parse"]}
{"id": "C270", "title": "A Directory object shows the whole content of the directory loaded last", "statement": "After any history of loads and clears, Load of a directory that can be read says true and the object then shows exactly its entries in order and the given path; Load of another name says false and leaves the object empty; GetNumberOfFilesInDirectory gives the same number; GetFile answers a null pointer exactly for indices past the end. (False of the code for an error while reading: it is taken for the end of the directory.)", "quantifier": "all histories, file systems and names", "why_tests_cant": "It ranges over all histories of one object, and the failure needs a read error in the middle of a directory.", "anchors": ["vital/kwiversys/Directory.cxx Directory::Load, GetNumberOfFiles, GetFile, GetPath, Clear, GetNumberOfFilesInDirectory"]}
{"id": "C271", "title": "Algorithms called from Python get and give the right objects", "statement": "In every Python program of ImageIo.load, ImageIo.save, ConvertImage.convert, TrackFeatures.track and the collection of their results, each implementation is called with exactly the C++ objects that the given Python objects stand for, each returned Python object stands for the C++ object returned until it is collected (also when several Python objects stand for the same C++ object), every C++ exception and null result becomes a Python exception with the same text, and the C side keeps an object exactly as long as a Python object stands for it. (False of the code for allocators without spare bytes: the message is written one byte past its block.)", "quantifier": "all programs, all answers of the implementations, all addresses of C++ objects, all allocators", "why_tests_cant": "The claim is about all interleavings of calls and collections and about address reuse.", "anchors": ["vital/bindings/python/vital/algo/image_io.py ImageIo.load, save", "vital/bindings/python/vital/algo/convert_image.py ConvertImage.convert", "vital/bindings/python/vital/algo/track_features.py TrackFeatures.track", "vital/bindings/c/algo_def/image_io.cxx", "vital/bindings/c/algo_def/convert_image.cxx", "vital/bindings/c/algo_def/track_features.cxx"]}
{"id": "C272", "title": "The hash functions of hash_map and hash_set", "statement": "The hash of a string (std::string or char*) is the number that its characters up to the first NUL form in base 5 with their signed values, modulo 2^64, whatever follows the NUL; different integers of one type have different hashes; a map with std::string keys is a finite map of whole strings although strings that agree up to a NUL share a bucket. Raising a character by one and lowering the next by five never changes the hash.", "quantifier": "all strings, all integers, all sequences of map operations", "why_tests_cant": "It ranges over all strings of any length and all 64-bit integers.", "anchors": ["vital/kwiversys/hash_fun.hxx.in hash, _stl_hash_string", "vital/kwiversys/hash_map.hxx.in hash_map"]}
{"id": "C273", "title": "Maps with char* keys", "statement": "A hash_map with char* keys is a finite map of C strings: a pointer to the same characters finds what was inserted. (False of the code: the hash looks at the characters but the comparison at the addresses, so it is a map of addresses, and only as long as the characters behind the keys stay the same.)", "quantifier": "all sequences of map operations, all contents of the memory", "why_tests_cant": "A test with string literals passes when the compiler merges equal literals; the claim is about all pointers and memory contents.", "anchors": ["vital/kwiversys/hash_fun.hxx.in hash<const char*>", "vital/kwiversys/hash_map.hxx.in hash_map"]}
{"id": "C274", "title": "Reading configuration files from Python", "statement": "ConfigBlock.from_file(path) gives an object for exactly the block that the C++ reader makes, or raises the exception class documented for the C++ exception with its text and leaves no object behind; x.read(path) merges all entries of that block into x and leaves no other object, or raises and merges nothing. (False of the code: merge_config stops at a read-only entry of x and its exception is swallowed; and messages are written one byte past their block.)", "quantifier": "all programs' states, files, paths, allocators", "why_tests_cant": "It is about every state of the handle caches and every file; the partial merge depends on the order of the keys.", "anchors": ["vital/bindings/python/vital/config_block.py ConfigBlock.from_file, read", "vital/bindings/c/config_block.cxx vital_config_block_file_read, vital_config_block_merge_config", "vital/config/config_block_io.cxx read_config_file"]}
{"id": "C275", "title": "Writing configuration files from Python", "statement": "When x.write(path) raises nothing, the file holds the text of the block; otherwise it raises the exception class documented for the C++ exception with its text. (False of the code: a file that cannot be opened for writing is not noticed.)", "quantifier": "all states, file systems, paths", "why_tests_cant": "The failure needs a file that cannot be opened; the claim is about every block and file system.", "anchors": ["vital/bindings/python/vital/config_block.py ConfigBlock.write", "vital/bindings/c/config_block.cxx vital_config_block_file_write", "vital/config/config_block_io.cxx write_config_file"]}
{"id": "C276", "title": "The text of a configuration in Python", "statement": "x.as_string() gives exactly the text that write puts into a file, or raises the documented exception; in both cases the files and open descriptors are as before. (False of the code: for a block that cannot be written, such as one without entries, the temporary file and an open descriptor stay behind.)", "quantifier": "all states, blocks, temporary names", "why_tests_cant": "The leak only shows in the long run; the equality is about every block.", "anchors": ["vital/bindings/python/vital/config_block.py ConfigBlock.as_string", "vital/config/config_block_io.cxx write_config"]}
{"id": "C277", "title": "Python tracks, track sets and cameras behave as values", "statement": "In every Python program using Track, TrackSet and Camera objects, each object keeps the value it was created with until it is collected, whatever other objects are collected: a TrackSet made of a list of tracks has exactly those tracks (len is the length of the list, repetitions counted), objects are always true (also an empty TrackSet), a list containing anything but tracks is refused, a file read or written has the effect of the C++ file functions on that value, failures raise VitalBaseException and make no object; when all objects are collected, no C++ object is left.", "quantifier": "every sequence of constructor calls, len, is_empty, bool, from_file, write_tracks_file, from_krtd_file, write_krtd_file and collections, with every file system, and with addresses of collected objects reused", "why_tests_cant": "handles are addresses that the allocator reuses, and the collection of one object must not affect another; tests try one order", "anchors": ["vital/bindings/python/vital/track.py:Track", "vital/bindings/python/vital/track_set.py:TrackSet", "vital/bindings/python/vital/camera.py:Camera", "vital/bindings/c/track.cxx:vital_track_new", "vital/bindings/c/track_set.cxx:vital_trackset_new", "vital/bindings/c/camera.cxx:vital_camera_read_krtd_file"]}
{"id": "C278", "title": "A track set saved from Python and loaded again has as many tracks", "statement": "If write_tracks_file of a TrackSet succeeds, TrackSet.from_file on that file gives a set of the same length (with the same tracks, when these have distinct ids and states in frame order).", "quantifier": "every program, every track set it holds and every writable file", "why_tests_cant": "sets are of any length and with any tracks", "anchors": ["vital/bindings/python/vital/track_set.py:write_tracks_file, from_file", "vital/io/track_set_io.cxx:write_track_file, read_track_file"]}
{"id": "C279", "title": "Host and process memory are those of /proc/meminfo and of the limits", "statement": "GetHostMemoryTotal is the MemTotal of /proc/meminfo and GetHostMemoryUsed is MemTotal minus MemFree, in KiB; GetHostMemoryAvailable is the least of the total and of the positive number in the environment variable named; GetProcMemoryAvailable is the least of that, of the second variable and of the soft limits for data and address space, divided by 1024. When the file cannot be read or is empty, the answers are -1 and GetProcMemoryAvailable is at most -1.", "quantifier": "every content of /proc/meminfo made of key:value lines, every environment, every pair of variable names and every pair of resource limits", "why_tests_cant": "The files, environments and 64-bit limits are unbounded in number; a test sees the machine it runs on.", "anchors": ["vital/kwiversys/SystemInformation.cxx: GetHostMemoryTotal, GetHostMemoryAvailable, GetHostMemoryUsed, GetProcMemoryAvailable, GetFieldsFromFile, NameValue, LoadLines"]}
{"id": "C280", "title": "The memory used by the process is VmRSS, whatever the process is called", "statement": "GetProcMemoryUsed is the number in the VmRSS line of /proc/self/status, whatever the (at most fifteen characters long) name of the process in the first line of that file.", "quantifier": "every name of a process and every content of the other lines", "why_tests_cant": "A test runs under one process name.", "anchors": ["vital/kwiversys/SystemInformation.cxx: GetProcMemoryUsed, GetFieldFromFile, NameValue"]}
{"id": "C281", "title": "SetStackTraceOnError(0) gives back the signal actions that SetStackTraceOnError(1) replaced", "statement": "SetStackTraceOnError(1) sets the library's handler for SIGABRT, SIGSEGV, SIGTERM, SIGINT, SIGILL, SIGBUS and SIGFPE; the next SetStackTraceOnError(0) gives each of them the action it had before, however often tracing was enabled in between and whatever the program set meanwhile; other signals are never touched, and disabling without enabling changes nothing. A signal that the handler receives is printed once, and the process then aborts with the program's own SIGABRT action.", "quantifier": "every initial assignment of actions and every sequence of SetStackTraceOnError and sigaction calls", "why_tests_cant": "Quantifies over all histories of calls; the process of a test dies of the signal.", "anchors": ["vital/kwiversys/SystemInformation.cxx: SetStackTraceOnError, StacktraceSignalHandler"]}
{"id": "C282", "title": "GetCPUDescription ends, and loses nothing but repeated blanks", "statement": "GetCPUDescription returns, for every processor, the number of cores, the model name, the speed and the processor name with every run of blanks replaced by one blank: it contains no two blanks in a row and the characters that are no blanks are the same, in order.", "quantifier": "every number of cores, model name, speed and processor name", "why_tests_cant": "The loop runs until no two blanks are left; a test sees one processor.", "anchors": ["vital/kwiversys/SystemInformation.cxx: GetCPUDescription, GetExtendedProcessorName"]}
{"id": "C283", "title": "The identity of a processor is the one in /proc/cpuinfo", "statement": "For the /proc/cpuinfo of an x86 machine, GetVendorString, GetVendorID, GetModelName, GetFamilyID, GetModelID, GetSteppingCode and GetProcessorCacheSize answer the vendor_id, the name of that maker, the model name, cpu family, model, stepping and cache size of the first processor in the file. On ARM the family is the CPU architecture and the stepping the CPU revision; on PA-RISC the family of architecture 1.1a is 282 and of 2.0 it is 512, the maker is Hewlett-Packard and the cache size is that of both caches. Without a file nothing is known (empty texts, zeroes, Unknown Manufacturer).", "quantifier": "every cpuinfo file in the format of Linux whose values do not contain the names of the fields looked for", "why_tests_cant": "Quantifies over all processors, vendors and files.", "anchors": ["vital/kwiversys/SystemInformation.cxx: RetreiveInformationFromCpuInfoFile, FindManufacturer, GetVendorID, GetFamilyID, GetModelID, GetSteppingCode, ExtractValueFromCpuInfoFile"]}
{"id": "C284", "title": "Python images and image containers share pictures", "statement": "An Image made with dimensions (interleaved or not) has a picture of those dimensions, with the steps of that layout; Image.from_image, ImageContainer(image) and container.get_image give objects on the same picture: a byte written through one is read through all of them, and no other picture changes. Collecting an object changes nothing for the others, and the pixels stay until the last object on them is collected; when all objects are gone no pixels are left in memory. Sizes, widths, heights, depths and steps are those of the picture, and statements on objects of the other class are refused with an exception.", "quantifier": "every sequence of statements on any number of Image and ImageContainer objects, every dimension and layout, every order of collection and every choice of addresses by the allocator", "why_tests_cant": "Quantifies over all histories of sharing and collection; leaks and dangling pixels are invisible to a test that reads values.", "anchors": ["vital/bindings/python/vital/image.py: Image, from_image, width, height, depth, w_step, h_step, d_step", "vital/bindings/python/vital/image_container.py: ImageContainer, get_image", "vital/bindings/c/image.cxx", "vital/bindings/c/image_container.cxx", "vital/bindings/python/vital/util/VitalObject.py: from_c_pointer, __del__"]}
{"id": "C285", "title": "What an interrupted write_config_file leaves is never taken for a complete file", "statement": "If write_config_file is interrupted (the program or machine stops, the device is full or fails) no other file changes, and the file is as before or holds a first part of the new text. Reading it then fails, or gives the block that was there before or the block that was to be written. (False of the code: a value may be cut off and later entries missing, and a device error is not even reported. What holds: the keys read are keys of the block, every key before the last one read has its own value, and the last one a first part of its value.)", "quantifier": "every block with readable keys and plain values, every file system, and every moment of the interruption (every number of bytes that reached the device)", "why_tests_cant": "Quantifies over all crash points of all writes; tests do not stop a program in the middle of a write.", "anchors": ["vital/config/config_block_io.cxx: write_config_file, write_config, read_config_file", "vital/config/config_parser.cxx: parse_config"]}
{"id": "C286", "title": "What an interrupted write_track_file leaves is a first part of the observations", "statement": "If write_track_file is interrupted (the program or machine stops, the device is full or fails) no other file changes, and the file is as before or holds a first part of the new text. Reading it then fails or gives a first part of the observations written, in order. (False of the code: a number cut off in the middle is read as another one, and the device error is not reported. What holds: all observations whose lines reached the file are read, and at most one more; if the interruption falls between two lines exactly those are read.)", "quantifier": "every track set with distinct ids, non-empty tracks in frame order and readable numbers, every file system, every number of bytes that reached the device", "why_tests_cant": "Quantifies over all crash points of all writes.", "anchors": ["vital/io/track_set_io.cxx: write_track_file, read_track_file"]}
{"id": "C287", "title": "What an interrupted write_ply_file leaves is a first part of the landmarks", "statement": "If write_ply_file is interrupted (the program or machine stops, the device is full or fails) no other file changes, and the file is as before or holds a first part of the new text. Reading it then gives a first part of the landmarks written. (False of the code: a line cut off in the middle is read as a landmark, under a made-up or cut id, and may take the place of a landmark that was complete; the declared number of vertices is not compared with the number found. What holds: reading never fails, all landmarks whose lines reached the file are read and at most one more is put in; if the interruption falls between two lines or in the header exactly those are read.)", "quantifier": "every landmark map with int64 ids and readable numbers, every file system, every number of bytes that reached the device", "why_tests_cant": "Quantifies over all crash points of all writes.", "anchors": ["vital/io/landmark_map_io.cxx: write_ply_file, read_ply_file"]}
{"id": "C288", "title": "What an interrupted write_krtd_file leaves is refused or gives the camera", "statement": "If write_krtd_file is interrupted (the program or machine stops, the device is full or fails) no other file changes, and the file is as before or holds a first part of the new text. Reading it then throws, or gives what reading the complete file gives. (False of the code: the third number of the translation, cut in the middle, is read as another number. What holds: reading throws invalid data or gives the calibration and rotation matrices and the first two numbers of the translation as written; if the translation reached the file the result is that of the complete file.)", "quantifier": "every camera with readable numbers, every number format in which a first part of a number's text is read entirely or refused, every file system, every number of bytes that reached the device", "why_tests_cant": "Quantifies over all crash points of all writes.", "anchors": ["vital/io/camera_io.cxx: write_krtd_file, read_krtd_file", "vital/types/camera.cxx: operator<<, operator>>", "vital/io/eigen_io.h: operator>>"]}
