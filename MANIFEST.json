{
 "claims": [
  {
   "property": "C01",
   "status": "proved",
   "theorems": [
    "Pdf.Props.C01_object_total"
   ],
   "note": "Induction over fuel: 2\u00b7(bytes left)+3 is enough, with the position as measure, from every reader state (the state is any buffer position)."
  },
  {
   "property": "C02",
   "status": "proved",
   "theorems": [
    "Pdf.Props.C02_string_read",
    "Pdf.Props.C02_string_roundtrip"
   ],
   "note": "`Spec.Syntax` defines spellings of a string inductively; induction over the spelling against the byte-level reader."
  },
  {
   "property": "C03",
   "status": "proved",
   "theorems": [
    "Pdf.Props.C03_hex_closed",
    "Pdf.Props.C03_hex_unclosed",
    "Pdf.Props.C03_hex_cases",
    "Pdf.Props.C03_hex_roundtrip"
   ],
   "note": "List-level function on the bytes up to `>`; induction over the input. The two cases (closed, cut off) are shown to be exhaustive."
  },
  {
   "property": "C04",
   "status": "proved",
   "theorems": [
    "Pdf.Props.C04_name_read",
    "Pdf.Props.C04_name_roundtrip"
   ],
   "note": "Spellings of names with #xx escapes; induction."
  },
  {
   "property": "C05",
   "status": "proved",
   "theorems": [
    "Pdf.Props.C05_number_exact",
    "Pdf.Props.C05_int_modulo",
    "Pdf.Props.C05_int_fails"
   ],
   "note": "The float accumulator is exact below 2^53 (binary64 modelled by rationals); `ReadInt` by modular arithmetic."
  },
  {
   "property": "C06",
   "status": "partial",
   "theorems": [
    "Pdf.Props.C06_fraction_false",
    "Pdf.Props.C06_fraction_partial",
    "Pdf.Props.C06_tenths_partial",
    "Pdf.Props.C06_when_partial"
   ],
   "note": "Refuted by evaluation of `0.25`; partial: exactly the numbers whose later fraction digits are zero are read right (error bounds by induction over the digits, for numbers below 2^32 with up to 100 fraction digits); those are read as the nearest double although they are rounded twice (`C06_tenths_partial`, whole part below 2^53). C06_fraction_false: C06, refuted `0.25` is read as 0.45: fraction digit number `i` contributes `d / (10 i)` instead of `d / 10^i`. (0.25 is exactly representable.). C06_fraction_partial: Missing: two or more fraction digits. C06_tenths_partial: Missing: other fractions, which are read wrong (`C06_when_partial`), and larger numbers. C06_when_partial: Missing: the numbers that are read wrong (`C06_fraction_false`), and larger ones."
  },
  {
   "property": "C07",
   "status": "proved",
   "theorems": [
    "Pdf.Props.C07_object_read"
   ],
   "note": "`Spec.Grammar`: inductive relation between objects and their texts; mutual induction over derivations, with the lemmas of C02\u2013C05, C12 and C13 at the leaves."
  },
  {
   "property": "C08",
   "status": "partial",
   "theorems": [
    "Pdf.Props.C08_reread_partial",
    "Pdf.Props.C08_indirect_partial",
    "Pdf.Props.C08_string_false",
    "Pdf.Props.C08_name_false",
    "Pdf.Props.C08_number_false",
    "Pdf.Props.C08_numbers",
    "Pdf.Props.C08_order_partial"
   ],
   "note": "`Spec.Print`: plain values (among numbers: integers below one million and the doubles nearest to such a number with one fraction digit, for which the shortest-digits search is followed); their text is a spelling in the sense of C07. Refuted for strings, names and large numbers by evaluation. `C08_order_partial`: in whatever order the entries of dictionaries are printed. C08_reread_partial: Missing: values outside `Plain`, for which it is false (`C08_\u2026_false`), and numbers with a fraction (C06). C08_indirect_partial: C08, partial The same inside an indirect object as written to raw.pdf: the value after `n g obj`. C08_string_false: C08, refuted A string with an unbalanced parenthesis is not quoted. C08_name_false: C08, refuted A name with a space in it is not quoted. C08_number_false: C08, refuted One million prints as `1e+06`, which reads as 1. C08_order_partial: C08, partial Whatever the order in which the entries of its dictionaries are printed, an indirect object with a plain value is read back from its text as that value up to the order of entries. Missing, as before: values outside `Plain`."
  },
  {
   "property": "C09",
   "status": "partial",
   "theorems": [
    "Pdf.Props.C09_object",
    "Pdf.Props.C09_name",
    "Pdf.Props.C09_keyword",
    "Pdf.Props.C09_number",
    "Pdf.Props.C09_string",
    "Pdf.Props.C09_hex",
    "Pdf.Props.C09_array",
    "Pdf.Props.C09_int_partial",
    "Pdf.Props.C09_int_false"
   ],
   "note": "Lemma on skipping white space and comments, applied in each reader. C09_int_partial: C09, partial `ReadInt`, provided something other than white space and comments follows; see `C09_int_false` for the end of the file. C09_int_false: C09, refuted for `ReadInt` at the end of the file After white space at the end of the file the last byte is pushed back, so the position is not shifted by the inserted length."
  },
  {
   "property": "C10",
   "status": "proved",
   "theorems": [
    "Pdf.Props.C10_messages",
    "Pdf.Props.C10_complete"
   ],
   "note": "The log is a list of an enumeration with the fourteen messages of README.md and one spelling each; the theorem is about their text."
  },
  {
   "property": "C11",
   "status": "partial",
   "theorems": [
    "Pdf.Props.C11_cut_off",
    "Pdf.Props.C11_array",
    "Pdf.Props.C11_dictionary",
    "Pdf.Props.C11_string",
    "Pdf.Props.C11_stream_false"
   ],
   "note": "Cut-off texts as an inductive relation; induction. C11_stream_false: C11 fails for streams without data The file ends right after the line break that follows `stream`: the result is empty data, and nothing is logged."
  },
  {
   "property": "C12",
   "status": "proved",
   "theorems": [
    "Pdf.Props.C12_dictionary"
   ],
   "note": "Spelling of dictionary bodies with stray objects; last value wins as a lookup statement."
  },
  {
   "property": "C13",
   "status": "proved",
   "theorems": [
    "Pdf.Props.C13_number",
    "Pdf.Props.C13_reference",
    "Pdf.Props.C13_token"
   ],
   "note": "Case analysis on what follows a number; the reader restores its position by seeking."
  },
  {
   "property": "C14",
   "status": "proved",
   "theorems": [
    "Pdf.Props.C14_offset",
    "Pdf.Props.C14_next_object",
    "Pdf.Props.C14_getters"
   ],
   "note": "`resolver` saves and restores the offset; what is read next depends only on it (C57)."
  },
  {
   "property": "C15",
   "status": "proved",
   "theorems": [
    "Pdf.Props.C15_chain",
    "Pdf.Props.C15_not_reference",
    "Pdf.Props.C15_path",
    "Pdf.Props.C15_cycle",
    "Pdf.Props.C15_terminates"
   ],
   "note": "Chain relation in `Spec.Resolve`; induction over the visited set, bounded by the cross reference map."
  },
  {
   "property": "C16",
   "status": "proved",
   "theorems": [
    "Pdf.Props.C16_null"
   ],
   "note": "Case analysis."
  },
  {
   "property": "C17",
   "status": "proved",
   "theorems": [
    "Pdf.Props.C17_dictionary",
    "Pdf.Props.C17_array",
    "Pdf.Props.C17_stream",
    "Pdf.Props.C17_reference",
    "Pdf.Props.C17_total"
   ],
   "note": "Case analysis for every getter."
  },
  {
   "property": "C18",
   "status": "partial",
   "theorems": [
    "Pdf.Props.C18_stream_partial",
    "Pdf.Props.C18_unclosed_partial",
    "Pdf.Props.C19_false",
    "Pdf.Props.C11_stream_false"
   ],
   "note": "First occurrence of `endstream` as a list statement, under the buffering condition of C19. C18_stream_partial: Missing: states in which the first nine bytes of data straddle the end of the reader's buffer, where it is false (`C19_false`). C18_unclosed_partial: Missing: no data at all after the line break (`C11_stream_false`), and the buffering condition. C19_false: C19 fails One parser has read the first 4090 bytes of the file, another one has seeked to offset 4090. The stream there is `A` for the second, but `Aendstream`, with the message `unclosed stream`, for the first. C11_stream_false: C11 fails for streams without data The file ends right after the line break that follows `stream`: the result is empty data, and nothing is logged."
  },
  {
   "property": "C19",
   "status": "partial",
   "theorems": [
    "Pdf.Props.C19_buffer_partial",
    "Pdf.Props.C19_false"
   ],
   "note": "Refuted with the buffer model; partial: same result for all buffer states with enough bytes buffered. C19_buffer_partial: Missing: the other states (`C19_false`). C19_false: C19 fails One parser has read the first 4090 bytes of the file, another one has seeked to offset 4090. The stream there is `A` for the second, but `Aendstream`, with the message `unclosed stream`, for the first."
  },
  {
   "property": "C20",
   "status": "partial",
   "theorems": [
    "Pdf.Props.C20_terminates_false",
    "Pdf.Props.C20_terminates_partial"
   ],
   "note": "Refuted by a file and an induction over fuel; partial: well-founded references through a rank. C20_terminates_false: C20 fails: on a file whose only stream names itself as its filter, `GetObject` does not return, whatever the state it is called in and however deep the calls are allowed to nest. C20_terminates_partial: What is missing is exactly the files with a circular dependency among these (`C20_terminates_false`). References elsewhere may form cycles."
  },
  {
   "property": "C21",
   "status": "proved",
   "theorems": [
    "Pdf.Props.C21_order",
    "Pdf.Props.C21_reachable",
    "Pdf.Props.C21_none",
    "Pdf.Props.C21_terminates",
    "Pdf.Props.C21_returns",
    "Pdf.Props.C21_file"
   ],
   "note": "`Spec.Tree`: depth-first search as an inductive relation on a graph of objects; order, completeness, no repetition by induction; termination with the number of unvisited objects as measure."
  },
  {
   "property": "C22",
   "status": "partial",
   "theorems": [
    "Pdf.Props.C22_partial",
    "Pdf.Props.C22_returns_partial",
    "Pdf.Props.C22_endless_false",
    "Pdf.Props.C22_false"
   ],
   "note": "Same relation for name trees, whose kids may also be direct. Partial: no endless way down through kids given as dictionaries; this bound is exact (`C22_endless_false`: with such a way it never returns, from the relation being inductive). Refuted also by a file with an induction over fuel. C22_partial: Missing: the other trees, where it never returns (`C22_endless_false`, `C22_false`). C22_returns_partial: C22, partial In that case it returns, if resolving a single reference does. C22_endless_false: C22 fails for every tree with a node from which an endless way leads down through kids given as dictionaries: GetNameTreeMap does not return. C22_false: C22 fails for nodes that give their kids by reference: in this file the name tree of object 1 is read forever."
  },
  {
   "property": "C23",
   "status": "partial",
   "theorems": [
    "Pdf.Props.C23_once",
    "Pdf.Props.C23_distinct",
    "Pdf.Props.C23_terminates_partial",
    "Pdf.Props.C23_terminates_false"
   ],
   "note": "The list of visited offsets grows and is bounded by the file; refuted through C20. C23_terminates_partial: What is missing: files whose streams give their filters by reference, where reading the section's own stream may not return (`C23_terminates_false`). C23_terminates_false: C23 fails for a cross reference stream that gives itself as its filter: loading it does not return."
  },
  {
   "property": "C24",
   "status": "proved",
   "theorems": [
    "Pdf.Props.C24_startxref",
    "Pdf.Props.C24_plan",
    "Pdf.Props.C24_load",
    "Pdf.Props.C24_table",
    "Pdf.Props.C24_stream"
   ],
   "note": "`Spec.Xref`: sections in any legal spelling; lookup statements on the merged maps; order of loading from a sorted plan."
  },
  {
   "property": "C25",
   "status": "partial",
   "theorems": [
    "Pdf.Props.C25_header",
    "Pdf.Props.C25_good_partial",
    "Pdf.Props.C25_bad_partial",
    "Pdf.Props.C25_unmarked",
    "Pdf.Props.C25_fields",
    "Pdf.Props.C25_good_false",
    "Pdf.Props.C25_bad_false"
   ],
   "note": "Marker relation on the file text; loop invariant of the repair loop; refuted by two files. C25_good_partial: Missing: an entry that points at an earlier marker of its object (`C25_good_false`). C25_bad_partial: Missing: object number 0, and entries at whose offset the object's number comes first but not a header (`C25_bad_false`). C25_good_false: C25 fails: an entry that points at a header of its own object is redirected when the file has a later marker for that object (the condition in `Load` should read `!ok`). C25_bad_false: C25 fails: an entry that does not point at a header is kept when the object's number and another number come first there."
  },
  {
   "property": "C26",
   "status": "proved",
   "theorems": [
    "Pdf.Props.C26_known",
    "Pdf.Props.C26_missing"
   ],
   "note": "Loop invariant over the markers found."
  },
  {
   "property": "C27",
   "status": "partial",
   "theorems": [
    "Pdf.Props.C27_value",
    "Pdf.Props.C27_exact",
    "Pdf.Props.C27_short",
    "Pdf.Props.C27_roundtrip",
    "Pdf.Props.C27_no_panic_partial",
    "Pdf.Props.C27_panic_false"
   ],
   "note": "Arithmetic modulo 2^64; refuted for negative widths. C27_no_panic_partial: Missing: negative widths (see `C27_panic_false`). C27_panic_false: C27 is violated: a negative width makes `ReadInt64` panic, and a file can bring this about."
  },
  {
   "property": "C28",
   "status": "proved",
   "theorems": [
    "Pdf.Props.C28_asciiHex_inverts"
   ],
   "note": "full round trip, any case, white space, optional last digit, optional end marker Round trip by induction over an encoding relation."
  },
  {
   "property": "C29",
   "status": "partial",
   "theorems": [
    "Pdf.Props.C29_ascii85_inverts_false",
    "Pdf.Props.C29_ascii85_inverts_partial"
   ],
   "note": "refuted as stated (last partial group is padded with zeros instead of the top digit); characterised exactly when it holds Round trip for whole groups, exact characterisation of the last one; refuted by evaluation. C29_ascii85_inverts_false: C29, refuted There is a byte string that ASCII85Decode does not restore from its standard encoding: the single byte `A`, encoded as `5l`, comes back as `@`. C29_ascii85_inverts_partial: What is missing is the last group when the length is not a multiple of 4. White space anywhere, `z` groups, with or without the `~` marker and anything after it. The data is restored exactly when its length is a multiple of 4, or the base-85 digits dropped from the last group are all zero; and the complete groups are always restored."
  },
  {
   "property": "C30",
   "status": "proved",
   "theorems": [
    "Pdf.Props.C30_runLength_inverts",
    "Pdf.Props.C30_runLength_bounded"
   ],
   "note": "round trip for every segmentation, and the size bound Round trip by induction over segmentations; size bound by induction."
  },
  {
   "property": "C31",
   "status": "partial",
   "theorems": [
    "Pdf.Props.C31_png_inverts_false",
    "Pdf.Props.C31_png_inverts_partial"
   ],
   "note": "refuted for more than one byte per pixel with Sub/Average/Paeth; proved for everything else Row-wise invariants against the PNG specification; refuted by evaluation. C31_png_inverts_false: C31, refuted RGB data filtered with the Sub algorithm (3 bytes per pixel) is not restored: the decoder takes the byte before as the left neighbour instead of the byte one pixel before. C31_png_inverts_partial: What is missing are Sub, Average and Paeth rows for images of more than one byte per pixel. Everything else is restored: Predictor 15 with a tag per row, or Predictor 10 to 14 whatever the tags are, all five algorithms for up to one byte per pixel, None and Up for any pixel size."
  },
  {
   "property": "C32",
   "status": "proved",
   "theorems": [
    "Pdf.Props.C32_tiff_inverts"
   ],
   "note": "full Bit-level invariant of the in-place loop, with C56."
  },
  {
   "property": "C33",
   "status": "proved",
   "theorems": [
    "Pdf.Props.C33_order",
    "Pdf.Props.C33_direct",
    "Pdf.Props.C33_unknown",
    "Pdf.Props.C33_empty",
    "Pdf.Props.C33_names",
    "Pdf.Props.C33_compose"
   ],
   "note": "The filter loop is a fold; equations for each name."
  },
  {
   "property": "C34",
   "status": "partial",
   "theorems": [
    "Pdf.Props.C34_decode_partial",
    "Pdf.Props.C34_decode_false",
    "Pdf.Props.C34_no_panic_false",
    "Pdf.Props.C34_no_panic_partial"
   ],
   "note": "refuted by an int overflow with huge Colors; proved when bit positions fit 64 bits Refuted by evaluation; partial by bounds on bit positions. C34_decode_partial: Missing: decompressed data of 2^59 bytes or more, and numbers from 2^20 for the bits, colors and columns of a predictor; with larger ones it can panic (`C34_decode_false`). C34_decode_false: C34 fails: with `/Predictor 2 /Colors 1152921504606847232 /Columns 2`, `DecodeStream` of a Flate stream with one byte panics. C34_no_panic_false: C34, refuted Reversing a TIFF predictor panics for some parameters: with `/Predictor 2 /BitsPerComponent 8 /Colors 1152921504606847232 /Columns 2` a bit position overflows `int` and becomes a negative index. C34_no_panic_partial: What is missing are TIFF parameters so large that bit positions overflow 64 bits. Otherwise undoing prediction returns for every data and all parameters (negative and unknown ones included); with the PNG predictors it always does, even when the row size overflows."
  },
  {
   "property": "C35",
   "status": "proved",
   "theorems": [
    "Pdf.Props.C35_decrypt",
    "Pdf.Props.C35_cipher",
    "Pdf.Props.C35_object",
    "Pdf.Props.C35_stream"
   ],
   "note": "Object level for every object and spelling; stream level for whatever the undecrypted stream data is. `Spec.Rc4`: RC4 with the state as a function, counted from the start; the list-based cipher computes it (induction over the steps, `C35_cipher`). RC4 is an involution (same key stream); for objects by induction over C07 with encrypted strings."
  },
  {
   "property": "C36",
   "status": "partial",
   "theorems": [
    "Pdf.Props.C36_false",
    "Pdf.Props.C36_aes_partial",
    "Pdf.Props.C36_other_partial"
   ],
   "note": "Refuted for every key, vector and plaintext: vector and padding stay in the result. Partial: the result is vector, plaintext, padding; other data is returned unchanged and never panics with -v set up. CBC with an abstract block permutation; refuted for every key. C36_false: C36 fails, always: what `Decrypt` leaves is never the plaintext. C36_aes_partial: Missing: removal of the two. C36_other_partial: C36, partial Data that cannot be an encryption (no whole blocks after the vector) is returned as it is; no data makes `Decrypt` panic when the `-v` flag has been set up."
  },
  {
   "property": "C37",
   "status": "proved",
   "theorems": [
    "Pdf.Props.C37_object_keys",
    "Pdf.Props.C37_low_bits"
   ],
   "note": "Byte-level equality with Algorithm 1 of the standard."
  },
  {
   "property": "C38",
   "status": "proved",
   "theorems": [
    "Pdf.Props.C38_refuses",
    "Pdf.Props.C38_accepts"
   ],
   "note": "Under: all required entries present (through the getters, direct or indirect) and, for revision 3 and 4, U at least 16 bytes. For revision 4 acceptance is stated for every run that returns (see C40). Against Algorithms 2\u20135 in `Spec.Crypt`."
  },
  {
   "property": "C39",
   "status": "proved",
   "theorems": [
    "Pdf.Props.C39_unchanged"
   ],
   "note": "Case analysis of the exits of `SetPassword`."
  },
  {
   "property": "C40",
   "status": "partial",
   "theorems": [
    "Pdf.Props.C40_short_U_false",
    "Pdf.Props.C40_filter_length_false",
    "Pdf.Props.C40_partial"
   ],
   "note": "Refuted by a U entry of at most 8 bytes and by a crypt filter length above 16; proved outside these cases when following references returns. Refuted by two dictionaries; partial by bounds on /U of the standard handler and on /Length of crypt filters with a method. C40_short_U_false: C40 fails: a U entry of at most eight bytes panics for revision 3, with any password. C40_filter_length_false: C40 fails: a crypt filter with a /Length above 16 panics when the password is right. C40_partial: C40, partial `SetPassword` returns whenever following references does, the U entry (of the standard handler) is longer than eight bytes, and the lengths of crypt filters with a method are between 0 and 16."
  },
  {
   "property": "C41",
   "status": "proved",
   "theorems": [
    "Pdf.Props.C41_first_32"
   ],
   "note": "Rewriting: only `take 32` of the password is used."
  },
  {
   "property": "C42",
   "status": "partial",
   "theorems": [
    "Pdf.Props.C42_named_partial",
    "Pdf.Props.C42_EFF_false",
    "Pdf.Props.C42_default_false",
    "Pdf.Props.C42_unencrypted",
    "Pdf.Props.C42_encrypt_dictionary",
    "Pdf.Props.C42_stream_filter"
   ],
   "note": "Refuted for EFF (misspelled key) and for the default of StmF/StrF. Proved: named filters, StmF, StrF, leading Crypt filter, unencrypted entries, indirect encryption dictionary. Lookup statements on the filter map; refuted for EFF and defaults. C42_named_partial: Differences from the standard: without /StmF or /StrF, or when they name no filter, the default is RC4 with the file key, not Identity (`C42_default_false`); /EFF is ignored and embedded files always use RC4 with the file key (`C42_EFF_false`). C42_EFF_false: C42 fails for embedded files: /EFF is ignored. A file in which all three entries name the same AES filter has its strings and streams decrypted with AES, and its embedded files with RC4. C42_default_false: C42 fails for the defaults: without /StmF and /StrF the standard says Identity (no decryption); here it is RC4 with the file key."
  },
  {
   "property": "C43",
   "status": "proved",
   "theorems": [
    "Pdf.Props.C43_decode",
    "Pdf.Props.C43_split",
    "Pdf.Props.C43_width",
    "Pdf.Props.C43_append",
    "Pdf.Props.C43_default"
   ],
   "note": "Induction over the number of codes."
  },
  {
   "property": "C44",
   "status": "partial",
   "theorems": [
    "Pdf.Props.C44_lookup",
    "Pdf.Props.C44_width",
    "Pdf.Props.C44_text",
    "Pdf.Props.C44_first_partial",
    "Pdf.Props.C44_false",
    "Pdf.Props.C44_array_false",
    "Pdf.Props.C44_terminates_partial",
    "Pdf.Props.C44_terminates_false"
   ],
   "note": "`Spec.Text`: entries of a character map in any spelling; last range wins; refuted for the second code of a range; termination by a measure on ranges. C44_first_partial: Missing: the other codes of a range (`C44_false`). C44_false: C44 fails for the second code of a range: with `<00> <01> <41>` code 01 gives A, not B. C44_array_false: C44 fails for ranges whose values are listed in an array (ISO 32000-1, 9.10.3): neither the codes of such a range nor those of the ranges after it in the block get a value. C44_terminates_partial: C44, partial Loading a character map returns, unless the map has a hex string whose value is 2^63 - 1 modulo 2^64 (see `C44_terminates_false`). C44_terminates_false: C44 fails: with a range that ends at the largest integer, loading does not return."
  },
  {
   "property": "C45",
   "status": "proved",
   "theorems": [
    "Pdf.Props.C45_page",
    "Pdf.Props.C45_page_parts",
    "Pdf.Props.C45_text",
    "Pdf.Props.C45_pieces",
    "Pdf.Props.C45_exists",
    "Pdf.Props.C45_returns"
   ],
   "note": "`Spec.Text`: blocks of a content stream; simulation of the loop; totality by C01."
  },
  {
   "property": "C46",
   "status": "partial",
   "theorems": [
    "Pdf.Props.C46_false",
    "Pdf.Props.C46_partial"
   ],
   "note": "Refuted by evaluation; partial for strings at even positions. C46_false: C46 fails. C46_partial: Missing: other arrays (`C46_false`)."
  },
  {
   "property": "C47",
   "status": "partial",
   "theorems": [
    "Pdf.Props.C47_partial",
    "Pdf.Props.C47_exact_partial",
    "Pdf.Props.C47_exact_meets",
    "Pdf.Props.C47_false"
   ],
   "note": "Writes of a run as a list (`Spec.Extract`); structural induction over nested values; permutation for map order. Refuted for arrays. C47_partial: Missing: objects that are not themselves dictionaries (for which it is false, see `C47_false`). C47_exact_partial: C47, partial What javascript.js consists of, exactly: for each object in use and each dictionary inside it the script its entry /JS stands for, a string or the data of a stream, given directly or by reference, once each, in some order. The strings for /URI are all in urls.txt, as often as they occur. C47_false: C47 fails for objects that are arrays: dictionaries inside them are not extracted."
  },
  {
   "property": "C48",
   "status": "partial",
   "theorems": [
    "Pdf.Props.C48_url",
    "Pdf.Props.C48_url_none",
    "Pdf.Props.C48_embedded",
    "Pdf.Props.C48_params",
    "Pdf.Props.C48_plain",
    "Pdf.Props.C48_nameless",
    "Pdf.Props.C48_action",
    "Pdf.Props.C48_action_string",
    "Pdf.Props.C48_false"
   ],
   "note": "What each case adds to the report, from the values its entries stand for. C48_false: C48 fails for launch actions whose /F is a string: the file is listed, but no command."
  },
  {
   "property": "C49",
   "status": "partial",
   "theorems": [
    "Pdf.Props.C49_load_merge",
    "Pdf.Props.C49_load_repair",
    "Pdf.Props.C49_load",
    "Pdf.Props.C49_partial",
    "Pdf.Props.C49_contents",
    "Pdf.Props.C49_false"
   ],
   "note": "Steady computations: same writes up to permutation for every oracle; reads do not depend on the reader state when offsets are not negative (`Lemmas.Fixed`); `Load` leaves the same maps for every order of the repair and of the crypt filters (`Lemmas.LoadOrder`). Refuted otherwise. C49_partial: Restricted to files whose sections leave no negative offset in the cross reference (see `C49_false`) and whose crypt filters have their method and length in place. Not covered: the order in which sections are merged, which `C49_load_merge` shows to be unobservable. C49_false: C49 fails in general: here the URLs found depend on the order."
  },
  {
   "property": "C50",
   "status": "proved",
   "theorems": [
    "Pdf.Props.C50_unreadable",
    "Pdf.Props.C50_directory"
   ],
   "note": "Trace of file system calls."
  },
  {
   "property": "C51",
   "status": "partial",
   "theorems": [
    "Pdf.Props.C51_partial",
    "Pdf.Props.C51_false",
    "Pdf.Props.C70_false",
    "Pdf.Props.C44_terminates_false"
   ],
   "note": "Refuted for every readable input; programs that set the flag: `C51_partial`, see C70. C51_partial: Missing: programs that do not set the flag crash (`C51_false`); files in which a filter, a kid list or the widths of a cross reference stream are given by reference, where the call need not return (`C70_false`); character maps that never end (`C44_terminates_false`); encryption dictionaries that crash the program (`C40_short_U_false`, `C40_filter_length_false`). C51_false: C51 fails The documented library call, in a program that does not set `pdf.Verbose`, panics for every readable input whose output directory can be created, after removing the old directory. C70_false: C70 fails: `Parse` never returns on a file whose cross reference stream gives itself as its filter. C44_terminates_false: C44 fails: with a range that ends at the largest integer, loading does not return."
  },
  {
   "property": "C52",
   "status": "proved",
   "theorems": [
    "Pdf.Props.C52_refuses",
    "Pdf.Props.C52_runs"
   ],
   "note": "Trace of file system calls of main.go."
  },
  {
   "property": "C53",
   "status": "partial",
   "theorems": [
    "Pdf.Props.C53_false",
    "Pdf.Props.C53_closed_partial"
   ],
   "note": "Trace of open and close calls. C53_false: C53 fails When all files could be created, errors.txt is never closed and files.txt is closed twice. C53_closed_partial: Missing: errors.txt and files.txt (`C53_false`)."
  },
  {
   "property": "C54",
   "status": "proved",
   "theorems": [
    "Pdf.Props.C54_parse",
    "Pdf.Props.C54_dump"
   ],
   "note": "Invariant on the report."
  },
  {
   "property": "C55",
   "status": "partial",
   "theorems": [
    "Pdf.Props.C55_partial",
    "Pdf.Props.C55_false"
   ],
   "note": "Buffer model: short read exactly when the length is 4095 modulo 4096. C55_partial: Missing: the other lengths (see `C55_false`). C55_false: C55 is violated for every table where that length is 4095 modulo 4096: no key is read (and /Prev is not followed). The buffered reader then hands out only the first byte of `<<`."
  },
  {
   "property": "C56",
   "status": "proved",
   "theorems": [
    "Pdf.Props.C56_bits"
   ],
   "note": "full, fields of up to 24 bits Bit arithmetic with `Nat.testBit`."
  },
  {
   "property": "C57",
   "status": "proved",
   "theorems": [
    "Pdf.Props.C57_object_unread_only"
   ],
   "note": "Simulation between two reader states (`Lemmas.Cursor*`)."
  },
  {
   "property": "C58",
   "status": "proved",
   "theorems": [
    "Pdf.Props.C58_object"
   ],
   "note": "Composition of C07, C35, C37 at the entry's offset."
  },
  {
   "property": "C59",
   "status": "partial",
   "theorems": [
    "Pdf.Props.C59_stream_partial",
    "Pdf.Props.C19_false",
    "Pdf.Props.C20_terminates_false"
   ],
   "note": "Composition with C18 and C33. C59_stream_partial: Missing: filters and parameters given by reference, a `Crypt` filter in the list (`C42_stream_filter`), and objects whose text up to the first nine bytes of data is longer than the reader's buffer (there it is false, `C19_false`). C19_false: C19 fails One parser has read the first 4090 bytes of the file, another one has seeked to offset 4090. The stream there is `A` for the second, but `Aendstream`, with the message `unclosed stream`, for the first. C20_terminates_false: C20 fails: on a file whose only stream names itself as its filter, `GetObject` does not return, whatever the state it is called in and however deep the calls are allowed to nest."
  },
  {
   "property": "C60",
   "status": "partial",
   "theorems": [
    "Pdf.Props.C60_zero",
    "Pdf.Props.C60_false"
   ],
   "note": "Refuted for every such stream through C24, and for a file by evaluation. C60_false: C60 fails, for a whole file."
  },
  {
   "property": "C61",
   "status": "partial",
   "theorems": [
    "Pdf.Props.C61_partial",
    "Pdf.Props.C61_false",
    "Pdf.Props.C20_terminates_false"
   ],
   "note": "Termination of the scanning loops (regular expression matches advance) and C23; refuted through C20. C61_partial: C61, partial `Load` returns (or panics) on every file, if no stream gives its filters by reference. See `C61_false` for the others. C61_false: C61 fails: `Load` does not return on a file whose cross reference stream gives itself as its filter. C20_terminates_false: C20 fails: on a file whose only stream names itself as its filter, `GetObject` does not return, whatever the state it is called in and however deep the calls are allowed to nest."
  },
  {
   "property": "C62",
   "status": "proved",
   "theorems": [
    "Pdf.Props.C62_create_fails",
    "Pdf.Props.C62_closed"
   ],
   "note": "Trace of file system calls."
  },
  {
   "property": "C63",
   "status": "proved",
   "theorems": [
    "Pdf.Props.C63_order",
    "Pdf.Props.C63_none",
    "Pdf.Props.C63_exact",
    "Pdf.Props.C63_once"
   ],
   "note": "As C21, on name trees."
  },
  {
   "property": "C64",
   "status": "partial",
   "theorems": [
    "Pdf.Props.C64_stream_partial",
    "Pdf.Props.C64_array_partial",
    "Pdf.Props.C64_none",
    "Pdf.Props.C64_false"
   ],
   "note": "From `Lemmas.Report`: the report on a form as a function of a view of the objects. C64_stream_partial: Missing: forms in an array given by reference (see `C64_false`). C64_array_partial: C64, partial A form in an array is the streams that the array refers to, one after the other. C64_false: C64 fails for a form in an array that is given by reference: an empty form is written."
  },
  {
   "property": "C65",
   "status": "proved",
   "theorems": [
    "Pdf.Props.C65_embedded",
    "Pdf.Props.C65_urls"
   ],
   "note": "Loop invariants over positions of the list of names."
  },
  {
   "property": "C66",
   "status": "proved",
   "theorems": [
    "Pdf.Props.C66_actions"
   ],
   "note": "As C64, with a permutation for /AA."
  },
  {
   "property": "C67",
   "status": "proved",
   "theorems": [
    "Pdf.Props.C67_report",
    "Pdf.Props.C67_meets"
   ],
   "note": "Refinement: the extraction with its reader state, oracle and fuel refines the relation `Spec.Reports` on views."
  },
  {
   "property": "C68",
   "status": "partial",
   "theorems": [
    "Pdf.Props.C68_partial",
    "Pdf.Props.C68_false"
   ],
   "note": "As C64; refuted by two files with the same content. C68_partial: Missing: a reference to an array of streams (see `C68_false`). C68_false: C68 fails for contents in an array that is given by reference: the page has no text."
  },
  {
   "property": "C69",
   "status": "proved",
   "theorems": [
    "Pdf.Props.C69_verbose",
    "Pdf.Props.C69_program"
   ],
   "note": "Equality of all functions for the two values of the flag, by induction on the bounds of recursion."
  },
  {
   "property": "C70",
   "status": "partial",
   "theorems": [
    "Pdf.Props.C70_partial",
    "Pdf.Props.C70_bounds",
    "Pdf.Props.C70_false",
    "Pdf.Props.C44_terminates_false"
   ],
   "note": "Larger bounds never change a result (`Lemmas.Deeper`, function by function). Refuted through C61. Partial: every function from the reader to `Parse` gives one and the same result for all sufficiently large bounds (`Lemmas.Runs*`), on files described by `Spec.Tame`, encrypted or not (decryption keeps the shape of values: `TameFor.mapStr`; `SetPassword` returns by C40). C70_partial: Missing: as for `C51_partial`. C70_false: C70 fails: `Parse` never returns on a file whose cross reference stream gives itself as its filter. C44_terminates_false: C44 fails: with a range that ends at the largest integer, loading does not return."
  },
  {
   "property": "C71",
   "status": "proved",
   "theorems": [
    "Pdf.Props.C71_raw"
   ],
   "note": "Exact description of the writes to raw.pdf over the run; the cross reference has each number once (`Lemmas.Keys`)."
  },
  {
   "property": "C72",
   "status": "proved",
   "theorems": [
    "Pdf.Props.C72_read"
   ],
   "note": "Occurrences of `obj` in a file built from texts of objects (`Spec.Layout`), by induction over the list: each match of the scanner is the header of one of them. Then C26, C58 and C59."
  },
  {
   "property": "C73",
   "status": "partial",
   "theorems": [
    "Pdf.Props.C73_printed",
    "Pdf.Props.C73_raw_partial",
    "Pdf.Props.C73_false"
   ],
   "note": "Printed forms are texts of objects in the sense of C72; composition with C71. Refuted for streams with filters. C73_raw_partial: Missing: streams with filters, whose data is printed decoded while the dictionary still names the filters (`C73_false`), and values that print as something else (C08). C73_false: C73 is false for streams with filters: raw.pdf has the decoded data with the dictionary of the encoded data, so that the data is decoded once more when raw.pdf is read."
  },
  {
   "property": "C74",
   "status": "partial",
   "theorems": [
    "Pdf.Props.C74_read_partial",
    "Pdf.Props.C74_meant_partial",
    "Pdf.Props.C74_false"
   ],
   "note": "Documents as a grammar (`Spec.Document`), sections being tables or streams, the first two possibly those of a linearized document; induction over the updates for the chain of /Prev (`section_step`, from C24 for either kind) and for the words `xref` in `startxref`; then C25, C58, C59 and C72; offsets that lead nowhere as for C78. Refuted: the word `xref` in `startxref` is loaded as a section of its own. C74_read_partial: C74 A document with any number of incremental updates, not encrypted: `Load` succeeds whatever the password and the order in which maps are visited. A trailer key has the value that the newest trailer with it gives (the dictionary of a cross reference stream is a trailer); any other key comes from the dictionary of an object. An object that the sections say is in use is read from its last place in the file, with the generation that the newest section with it gives, even when the offset given there is that of an older version or of nothing. An object that the newest section with it says is free or in an object stream is null. An object that no section has is read as well. C74_meant_partial: restricted as follows: no first object of an update has a key /Encrypt or /Prev; no table takes one byte less than a multiple of 4096. C74_false: C74 is false for trailer keys that no trailer has: a document without /Encrypt in any trailer is refused as encrypted, because the dictionary of the first object after `startxref` is taken for a trailer."
  },
  {
   "property": "C75",
   "status": "partial",
   "theorems": [
    "Pdf.Props.C75_means",
    "Pdf.Props.C75_partial",
    "Pdf.Props.C75_found_partial",
    "Pdf.Props.C80_false"
   ],
   "note": "C74 and C67 joined: loading and `GetObject` give the same for all bounds (`Lemmas.Deeper`), extraction returns (`Lemmas.Runs*`, for any class of dictionaries closed under what extraction follows), chains of references are those of the document (C15). C75_partial: Missing: encrypted documents and objects in object streams (`C80_false`); trailer keys taken from objects (`C74_false`); name trees with endless ways down, where the call does not return (`C22_endless_false`, `C70_false`), and character maps that never end (`C44_terminates_false`); tables that end at the end of the reader's buffer (C55); programs that do not set `pdf.Verbose` (`C51_false`). C75_found_partial: Missing: as for `C75_partial`. C80_false: C80 fails, for a whole document: the action of its catalog, a link, is in an object stream; it is read as null, and is not in the report."
  },
  {
   "property": "C76",
   "status": "partial",
   "theorems": [
    "Pdf.Props.C76_read_partial",
    "Pdf.Props.C76_wrong",
    "Pdf.Props.C76_report_partial",
    "Pdf.Props.C36_false",
    "Pdf.Props.C42_EFF_false",
    "Pdf.Props.C42_default_false"
   ],
   "note": "Objects in the file and objects meant are related by encryption with an arbitrary MD5 (`Spec.Secret`); C74 read through that relation, C37, C38 and C42 for the keys, involution of RC4; the flag of each cross reference entry says whether the object is encrypted (`entry_flag`). The report as for C75. C76_read_partial: Missing: AES (`C36_false`); encrypted files with a key of their own (`C42_EFF_false`); entries of the encryption dictionary and file identifiers by reference; and what is missing from `C74_meant_partial`. C76_report_partial: Missing: as for `C76_read_partial` and `C75_partial`. C36_false: C36 fails, always: what `Decrypt` leaves is never the plaintext. C42_EFF_false: C42 fails for embedded files: /EFF is ignored. A file in which all three entries name the same AES filter has its strings and streams decrypted with AES, and its embedded files with RC4. C42_default_false: C42 fails for the defaults: without /StmF and /StrF the standard says Identity (no decryption); here it is RC4 with the file key."
  },
  {
   "property": "C77",
   "status": "proved",
   "theorems": [
    "Pdf.Props.C77_unsupported",
    "Pdf.Props.C77_incomplete"
   ],
   "note": "Case analysis of the steps of `SetPassword` on the document loaded as for C74."
  },
  {
   "property": "C78",
   "status": "partial",
   "theorems": [
    "Pdf.Props.C78_meant_partial",
    "Pdf.Props.C78_same_partial",
    "Pdf.Props.C78_false"
   ],
   "note": "The sections that the scans find, in the order of their places, do what the chain of /Prev does (`Sections.load`, `document_loads`); a lost offset changes nothing (`Lost.load`). Two documents with the same objects mean the same (`SameObjects.meant`). Refuted for wrong offsets that name an older section. C78_meant_partial: restricted as follows: offsets that are wrong lead nowhere, see `C78_false`; no first object of an update has a key of the trailers or /Encrypt. C78_same_partial: C78 (part) Two documents with the same objects whose sections list the same numbers as in use are read alike, whatever the offsets in them. C78_false: C78 is false for wrong offsets that lead somewhere: when `startxref` after an update has the offset of the section of the document before it, an object that the update deletes is read."
  },
  {
   "property": "C79",
   "status": "proved",
   "theorems": [
    "Pdf.Props.C79_steps",
    "Pdf.Props.C79_unique",
    "Pdf.Props.C79_error"
   ],
   "note": "IEEE 754 rounding by its definition (`Spec.Double`: nearest of all doubles, ties to even, overflow threshold); `roundNN_rounded`: the rounding function of the model satisfies it; uniqueness; induction over the digits; two-sided relative error bound."
  },
  {
   "property": "C80",
   "status": "partial",
   "theorems": [
    "Pdf.Props.C80_null",
    "Pdf.Props.C80_false"
   ],
   "note": "Object streams as a specification (`Spec.Packed`); refuted for all documents: entries of type 2 are never followed (`C80_null`, from C74), and for a whole document with its report. C80_false: C80 fails, for a whole document: the action of its catalog, a link, is in an object stream; it is read as null, and is not in the report."
  },
  {
   "property": "C81",
   "status": "partial",
   "theorems": [
    "Pdf.Props.C81_read_partial",
    "Pdf.Props.C81_same_partial",
    "Pdf.Props.C74_false"
   ],
   "note": "The chain of /Prev from the first section, after the sections that the scan finds; both parts are one revision (`Spec.firstTwo`); otherwise as for C74 and C78. C81_read_partial: restricted as follows: the first object of the second part has no key /Encrypt; no table takes one byte less than a multiple of 4096. C81_same_partial: restricted as follows: as above. C74_false: C74 is false for trailer keys that no trailer has: a document without /Encrypt in any trailer is refused as encrypted, because the dictionary of the first object after `startxref` is taken for a trailer."
  },
  {
   "property": "C82",
   "status": "partial",
   "theorems": [
    "Pdf.Props.C82_refused",
    "Pdf.Props.C82_false",
    "Pdf.Props.C82_partial"
   ],
   "note": "Algorithm 3 of the standard as a specification; refuted for all documents whose owner password is not also a user password (C76), and for a concrete one with MD5 and RC4 evaluated; partial: passwords with the same first 32 bytes. C82_false: C82, refuted A document with the owner password `own3` and the user password `pw`: with the user password its URI is in the report, with the owner password `Parse` returns the password error and writes nothing. C82_partial: Missing: all other owner passwords (`C82_false`), and what is missing from `C76_read_partial`."
  },
  {
   "property": "C83",
   "status": "partial",
   "theorems": [
    "Pdf.Props.C83_null",
    "Pdf.Props.C83_false"
   ],
   "note": "Hybrid files as a specification (`Spec.Hybrid`); refuted for all such files: the table is loaded last (C24) and /XRefStm is not read. C83_false: C83 fails, for a whole file: the action of its catalog, a link, is listed by the cross reference stream that the trailer names, and is not in the report."
  },
  {
   "property": "C84",
   "status": "partial",
   "theorems": [
    "Pdf.Props.C84_false",
    "Pdf.Props.C84_exact_partial",
    "Pdf.Props.C84_exact_secret_partial",
    "Pdf.Props.C84_order_partial",
    "Pdf.Props.C84_partial",
    "Pdf.Props.C84_secret_partial"
   ],
   "note": "From the report of C75 and C76: the text of each page is that of C45 in the fonts of C44, pages in the order of the page tree; a part of contents.txt because the lines of one dictionary are written together (`report_text`). With one page tree contents.txt is that text and nothing else (`report_exact`): what the other dictionaries write has no part in it. C84_false: C84 fails for an array of `TJ` with two strings: the page shows `AB`, and contents.txt has no `B`. C84_exact_partial: Missing: as for `C84_order_partial`. C84_exact_secret_partial: Missing: as for `C84_secret_partial`. C84_order_partial: Missing: as for `C75_partial`; the elements of `TJ` arrays at odd positions (`C46_false`, `C84_false`), character maps with values for codes of a range after the first (`C44_false`). C84_partial: Missing: as for `C84_order_partial`. C84_secret_partial: Missing: as for `C76_report_partial` and `C84_order_partial`."
  },
  {
   "property": "C85",
   "status": "partial",
   "theorems": [
    "Pdf.Props.C85_raw_partial",
    "Pdf.Props.C85_false",
    "Pdf.Props.C85_encrypt_false",
    "Pdf.Props.C85_partial",
    "Pdf.Props.C85_report_partial"
   ],
   "note": "A writer of files as a specification (`Spec.Write`: objects, table, trailer, startxref, for each edit); by induction on the edits, what it writes is a document as in C74, with right tables, and means what is there after the last edit (`edits_document`, `edits_right`, `edits_means`). Then C74, C75 and, for raw.pdf as a whole, C102. Refuted for streams whose data ends in a carriage return, and for edits whose first object has a key /Encrypt. C85_raw_partial: Missing: as for `C85_report_partial`. C85_false: C85 is false for streams whose data ends in a carriage return: it is read without it, whatever /Length says. C85_encrypt_false: C85 is false for edits whose first object has a key /Encrypt: the file, which is not encrypted, is refused as encrypted. C85_partial: Missing: tables that end at the end of the reader's buffer (C55); edits whose first object has a key /Prev or /Encrypt (`C74_false`). C85_report_partial: Missing: as for `C85_partial` and `C75_partial`."
  },
  {
   "property": "C86",
   "status": "partial",
   "theorems": [
    "Pdf.Props.C86_partial",
    "Pdf.Props.C86_secret_partial",
    "Pdf.Props.C86_false",
    "Pdf.Props.C47_false"
   ],
   "note": "From the report of C75: the names of the whole tree are those of its nodes one after the other (`Spec.NameDfs.blocks`), so values stay at odd places when each node has as many values as names; the hash in the file name decides the contents because hexadecimal is injective. Refuted for annotations: a document without trees of embedded files, actions and forms leaves no file (`report_nothing`). C86_partial: Missing: files of annotations (`C86_false`); trees with an odd number of names and values in a node; as for `C75_partial`. C86_secret_partial: Missing: as for `C76_report_partial`, `C86_partial` and `C87_partial`. C86_false: C86 fails for files that are attached by an annotation: they are not in the output directory, and not in files.txt. C47_false: C47 fails for objects that are arrays: dictionaries inside them are not extracted."
  },
  {
   "property": "C87",
   "status": "partial",
   "theorems": [
    "Pdf.Props.C87_only_partial",
    "Pdf.Props.C87_partial",
    "Pdf.Props.C87_false",
    "Pdf.Props.C47_false",
    "Pdf.Props.C86_secret_partial",
    "Pdf.Props.C90_secret_partial"
   ],
   "note": "(commands.txt has nothing else: `reported_command`.) From the report of C75, for actions under /A, /OpenAction and /AA whose program is given by a file specification. Refuted for programs given by a string (`report_noCommand`). C87_only_partial: Missing: programs given by a string (`C87_false`); that nothing else is there is for documents in whose name trees names and values alternate; as for `C75_partial`. C87_partial: Missing: programs given by a string (`C87_false`); actions that only follow others (/Next); as for `C75_partial`. C87_false: C87 fails for programs given by a string: commands.txt is empty. C47_false: C47 fails for objects that are arrays: dictionaries inside them are not extracted. C86_secret_partial: Missing: as for `C76_report_partial`, `C86_partial` and `C87_partial`. C90_secret_partial: Missing: as for `C76_report_partial`, `C87_only_partial` and `C90_partial`."
  },
  {
   "property": "C88",
   "status": "partial",
   "theorems": [
    "Pdf.Props.C88_array_false",
    "Pdf.Props.C88_partial",
    "Pdf.Props.C88_secret_partial",
    "Pdf.Props.C88_false",
    "Pdf.Props.C47_false"
   ],
   "note": "From the report of C75: every write to urls.txt comes from one of the places in `Spec.UrlIn` and the other way round (`url_reported`, `reported_url`). Refuted for file specifications whose /FS is a name, as in ISO 32000-1, because the code looks for a string. C88_array_false: C88 fails for a link in an array of annotations that is an object of its own: urls.txt is empty. C88_partial: Missing: URL file specifications as ISO 32000-1 has them, with a name as /FS (`C88_false`), and those that are neither of an action nor in the tree of embedded files; as for `C75_partial`. C88_secret_partial: Missing: as for `C76_report_partial`, `C88_partial` and `C89_partial`. C88_false: C88 fails for URLs given by a file specification as ISO 32000-1 has it: urls.txt is empty. C47_false: C47 fails for objects that are arrays: dictionaries inside them are not extracted."
  },
  {
   "property": "C89",
   "status": "partial",
   "theorems": [
    "Pdf.Props.C89_false",
    "Pdf.Props.C89_partial",
    "Pdf.Props.C47_false",
    "Pdf.Props.C88_secret_partial"
   ],
   "note": "From the report of C75: the writes to javascript.js are those of `Spec.ScriptIn`, except for references to things that are neither strings nor streams, which give empty lines. C89_false: C89 fails for a script in an array of annotations that is an object of its own: javascript.js has nothing but empty lines. C89_partial: Missing: as for `C75_partial`. C47_false: C47 fails for objects that are arrays: dictionaries inside them are not extracted. C88_secret_partial: Missing: as for `C76_report_partial`, `C88_partial` and `C89_partial`."
  },
  {
   "property": "C90",
   "status": "partial",
   "theorems": [
    "Pdf.Props.C90_partial",
    "Pdf.Props.C90_secret_partial",
    "Pdf.Props.C90_false",
    "Pdf.Props.C47_false",
    "Pdf.Props.C86_false"
   ],
   "note": "From the report of C75: every write to files.txt and every file comes from one of the places in `Spec.HoldsFile` and `Spec.NamesFile` and the other way round (`files_cases`, `fileReport_cases`, `holds_reported`, `names_reported`). Refuted for forms in an array given by reference. C90_partial: Missing: data of forms in an array that is given by reference (`C90_false`); files of annotations (`C86_false`); that nothing else is there is for documents in whose name trees names and values alternate; as for `C75_partial`. C90_secret_partial: Missing: as for `C76_report_partial`, `C87_only_partial` and `C90_partial`. C90_false: C90 fails for the data of a form in an array that is given by reference: all files in the output directory are empty. C47_false: C47 fails for objects that are arrays: dictionaries inside them are not extracted. C86_false: C86 fails for files that are attached by an annotation: they are not in the output directory, and not in files.txt."
  },
  {
   "property": "C91",
   "status": "proved",
   "theorems": [
    "Pdf.Props.C91_readers",
    "Pdf.Props.C91_exists",
    "Pdf.Props.C91_decode",
    "Pdf.Props.C91_plain"
   ],
   "note": "LZW encodings as a relation (`Spec.Lzw`: phrases of the table, one per code, the width given by the number of entries); induction over the encoding: the reader keeps the table of the encoder one entry behind. Every data has an encoding."
  },
  {
   "property": "C92",
   "status": "proved",
   "theorems": [
    "Pdf.Props.C92_reader",
    "Pdf.Props.C92_exact",
    "Pdf.Props.C92_exists",
    "Pdf.Props.C92_decode",
    "Pdf.Props.C92_plain"
   ],
   "note": "Compressed data as a relation (`Spec.Flate`, following the RFCs: canonical codes with Kraft sum 1, symbols, descriptions of codes, blocks, check sum); each function of the reader is shown to be a partial inverse of the part of the relation that it reads, in both directions."
  },
  {
   "property": "C93",
   "status": "partial",
   "theorems": [
    "Pdf.Props.C93_filter_partial",
    "Pdf.Props.C93_chain_partial",
    "Pdf.Props.C93_object_partial",
    "Pdf.Props.C93_concrete",
    "Pdf.Props.C93_false",
    "Pdf.Props.C93_predictor_false",
    "Pdf.Props.C93_secret_partial"
   ],
   "note": "The encodings of each filter as a relation (`Spec.Coding`, built from those of C28-C32, C91 and C92) and chains of them; induction on the chain. `C93_object_partial` links it to the documents of the other theorems: there, a stream object stands for the data its filters encode. C93_filter_partial: Missing: last ASCII85 groups where the digits left out are not zero (`C93_false`), and Sub, Average and Paeth rows of pixels of more than one byte (`C93_predictor_false`). C93_chain_partial: Missing: as for `C93_filter_partial`. C93_object_partial: Missing: as for `C93_filter_partial`. C93_false: C93 fails for ASCII85 with a last group of one byte: `A` is decoded to `@`, by any chain that ends in this filter. C93_predictor_false: C93 fails for rows with the Sub filter and pixels of three bytes, whatever was compressed how: reversing the prediction of two such pixels does not give them back. C93_secret_partial: Missing: as for `C93_filter_partial`."
  },
  {
   "property": "C94",
   "status": "partial",
   "theorems": [
    "Pdf.Props.C94_raw_partial",
    "Pdf.Props.C94_false",
    "Pdf.Props.C94_read_partial",
    "Pdf.Props.C94_report_partial"
   ],
   "note": "The writer of C85 with objects as they are stored (`Spec.Edit.Stored`) and the relation between a stored object and its data (`Spec.DataOf`, from C93); the file is a document as in C74 whose objects are the data. Then C74, C75 and C102. Refuted for encodings that end in a carriage return. C94_raw_partial: Missing: as for `C94_report_partial`. C94_false: C94 is false for encodings that end in a carriage return: of the two bytes `A` and carriage return, as one run, only the first is read. C94_read_partial: Missing: as for C93 and C85; encodings that end in a carriage return; streams of no bytes. C94_report_partial: Missing: as for `C94_read_partial` and `C75_partial`."
  },
  {
   "property": "C95",
   "status": "partial",
   "theorems": [
    "Pdf.Props.C95_partial",
    "Pdf.Props.C95_false"
   ],
   "note": "UTF-16BE and UTF-8 as functions on characters (`Spec.Unicode`); what C44 says of a text, with values in UTF-16BE. Refuted: the values are copied. Partial: the text is written in UTF-16BE. C95_partial: Missing: UTF-8 (`C95_false`), and codes that are not the first of their range, as for `C44_first_partial`. C95_false: C95 fails: A is written as two bytes, so that contents.txt has a zero byte in front of it."
  },
  {
   "property": "C96",
   "status": "partial",
   "theorems": [
    "Pdf.Props.C96_partial",
    "Pdf.Props.C96_false"
   ],
   "note": "Literal strings as the standard has them (`Spec.StringText`), with the number of line breaks written with CR; by induction what is read has that many more CR bytes than what is meant. So it is right exactly when there are none. C96_partial: Missing: strings with the others, which are read wrongly (`C96_false`). C96_false: C96 fails for line breaks written with CR LF."
  },
  {
   "property": "C97",
   "status": "partial",
   "theorems": [
    "Pdf.Props.C97_partial",
    "Pdf.Props.C97_false"
   ],
   "note": "Text strings as a relation (`Spec.TextString`), on the report of C89. Refuted for a document with a script in UTF-16; partial for ASCII. C97_partial: Missing: scripts in UTF-16 (`C97_false`), and as for `C89_partial`. C97_false: C97 fails for scripts in UTF-16: they are copied with the byte order mark."
  },
  {
   "property": "C98",
   "status": "partial",
   "theorems": [
    "Pdf.Props.C98_partial",
    "Pdf.Props.C98_wrong",
    "Pdf.Props.C98_false"
   ],
   "note": "From what Load does to the table (C25, C26) and what GetObject reads at an offset (C58). Refuted for all files whose table lists the number with the offset of another object. C98_partial: Missing: numbers that a section lists, with the offset of another object (`C98_wrong`, `C98_false`). C98_false: C98 fails: the file has no object with the number 2, but it is read as the object with the number 1."
  },
  {
   "property": "C99",
   "status": "partial",
   "theorems": [
    "Pdf.Props.C99_secret_partial",
    "Pdf.Props.C99_partial",
    "Pdf.Props.C99_false"
   ],
   "note": "The resources of page tree nodes, own or inherited (`Spec.ResourcesAt`). Refuted for a document whose resources are on the root of the page tree; partial, from C84, for pages with resources of their own or without any. C99_secret_partial: Missing: as for `C84_secret_partial` and `C99_partial`. C99_partial: Missing: pages that have their resources from a node above (`C99_false`); as for `C84_partial`. C99_false: C99 fails for a page that has its resources from the node above it: its text in the fonts of these resources is `A`, and contents.txt has no `A`."
  },
  {
   "property": "C100",
   "status": "partial",
   "theorems": [
    "Pdf.Props.C100_partial",
    "Pdf.Props.C100_secret_partial"
   ],
   "note": "From the report of C75 and C76: every write to contents.txt is the text of a content stream of a page (`reported_text`), and reported pages are nodes of the page tree (`pages_node`, the converse of what C84 uses). C100_partial: Missing: as for `C84_partial`; documents with content streams that are not sequences of operators. C100_secret_partial: Missing: as for `C76_report_partial` and `C100_partial`."
  },
  {
   "property": "C101",
   "status": "partial",
   "theorems": [
    "Pdf.Props.C101_wrong",
    "Pdf.Props.C101_false"
   ],
   "note": "Forms that pages draw as a relation (`Spec.Draws`). Refuted, from the exact content of contents.txt (C100), for all documents whose pages show no text of their own. C101_false: C101 fails for a document with a page that draws a form: the form shows `A`, and contents.txt is empty."
  },
  {
   "property": "C102",
   "status": "partial",
   "theorems": [
    "Pdf.Props.C102_false",
    "Pdf.Props.C102_partial",
    "Pdf.Props.C102_secret_partial"
   ],
   "note": "From the reports of documents (C75, C76): no report on a value writes to raw.pdf, so raw.pdf is one printed object per part, and the parts are the objects meant, each once. Refuted for objects in object streams (the document of C80). C102_false: C102 is false for objects in object streams: raw.pdf has no object 2, which the document has. C102_partial: Missing: as for `C75_partial`. C102_secret_partial: Missing: as for `C76_report_partial`."
  },
  {
   "property": "C103",
   "status": "partial",
   "theorems": [
    "Pdf.Props.C103_partial",
    "Pdf.Props.C103_secret_partial",
    "Pdf.Props.C103_wrong",
    "Pdf.Props.C103_false"
   ],
   "note": "Encodings as a specification (`Spec.differences`, `Spec.LetterFonts`); the text of a content stream depends only on what its fonts make of strings (`shows_mono`), and for the code these fonts have no entries (`letterFonts_page`). Then C84. Refuted, from the exact content of contents.txt, for all documents with such fonts and by a witness. C103_partial: Missing: all other encodings (`C103_false`); as for `C84_partial`. C103_secret_partial: Missing: as for `C84_secret_partial` and `C103_partial`. C103_false: C103 fails for a font where code 0 is the letter A: the page shows `A`, and contents.txt has no `A`."
  }
 ]
}