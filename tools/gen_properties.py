#!/usr/bin/env python3
"""Regenerates /verif/properties.jsonl (one JSON object per line)."""
import json
R = "lib/sia/rust/"
P = []
def p(title, statement, quantifier, why, anchors):
    P.append(dict(id=f"C{len(P)+1:02d}", title=title, statement=statement, quantifier=quantifier,
                  why_tests_cant=why, anchors=[R+a if not a.startswith("src/") else a for a in anchors]))

TBQ="three-bit-quantization/src/lib.rs:"; ENC="encoding/src/lib.rs:"; STE="embedding/src/io/steganography.rs:"
DATA="embedding/src/io/data.rs:"; HAAR="embedding/src/haar/mod.rs:"; EMB="embedding/src/lib.rs:"
WM="watermarking/src/watermark.rs:"; PROC="watermarking/src/process.rs:"; WLIB="watermarking/src/lib.rs:"
SIG="signature/src/lib.rs:"; FMT="utils/src/format.rs:"; BYT="utils/src/bytes.rs:"; ZC="zernike/src/calc.rs:"; ZL="zernike/src/lib.rs:"

p("Dequantization undoes any noise of at most one step (real arithmetic)",
  "With f64 arithmetic idealised as exact real arithmetic: let (q, p) = three_bit_quantization(f, step). For every noisy vector g of the same length with |g_i - f_i| <= step for every i, three_bit_dequantization(g, p, step) returns exactly q.",
  "every step > 0, every feature vector of every length (of magnitude at most 2^61 steps, so that every cell number fits in an i64), every noise vector bounded by one step in each coordinate, including noise exactly +-step and values exactly on cell boundaries",
  "the repository tests draw 14*1023 pseudo-random values; the failure-prone cases (boundaries of cells and half cells, noise exactly one step, negative cells) have measure zero",
  [TBQ+"three_bit_quantization", TBQ+"three_bit_dequantization"])
p("Dequantization in IEEE double arithmetic: exact up to thin boundary zones",
  "In IEEE binary64 arithmetic three_bit_dequantization(g, p, step) still returns exactly the original quantized vector whenever the noise is at most one step and every clean and noisy value is, measured in steps, at least 2^-53*(3K+12) away from every multiple of 1/2, where K bounds the absolute cell numbers. Without the margin the claim of C01 is false for the f64 code: with step = 1 and clean feature 1.0 the noisy value 1 - 2^-53 is restored to cell 2 instead of cell 1.",
  "every finite step between 2^-100 and 2^100, every feature vector whose cells are below K <= 2^39 in absolute value, every noise vector inside the stated bounds; plus an existential counterexample",
  "the violating set is a handful of doubles next to each boundary; random tests practically never hit it",
  [TBQ+"three_bit_quantization", TBQ+"three_bit_dequantization"])
p("One step is the exact noise tolerance",
  "For no eps > 0 does dequantization tolerate noise up to (1+eps)*step: for every step > 0 and every eps > 0 there are a feature and a noise with |noise| <= (1+eps)*step that are restored to a wrong cell, in both directions (up and down).",
  "every step > 0 and every eps > 0, both noise signs",
  "sharpness of a bound is a statement about all eps",
  [TBQ+"three_bit_dequantization"])
p("Quantization contract",
  "three_bit_quantization returns one integer per feature, namely the cell index q with q*step <= f < (q+1)*step, and exactly three bits per feature: the two bits of (q-1) mod 4, most significant first, then the bit that tells whether f lies in the upper half of its cell.",
  "every step > 0 and every feature vector of magnitude below 2^62 steps, so that every cell number fits in an i64 (real arithmetic)",
  "holds for all reals and lengths; tests give four literals",
  [TBQ+"quantize", TBQ+"three_bit_quantization", TBQ+"mod_four", TBQ+"two_bits_from_integer"])
p("How many features a stored perturbation vector authenticates, and when dequantization aborts",
  "three_bit_dequantization(g, p, step) aborts exactly when p's length is not a multiple of 3 or p describes more features than g contains; otherwise it returns len(p)/3 integers and ignores the features of g beyond that. This holds if no feature falls into the lowest i64 cell, -2^63 (one that is at least 2^63 steps below zero does); if one does, quantization and dequantization both abort.",
  "every feature vector, every bit vector of every length, every step > 0",
  "ranges over all pairs of lengths; tests only use matching lengths",
  [TBQ+"three_bit_dequantization"])
p("Perturbation vector survives the byte format",
  "perturbation_vector_from_bytes(perturbation_vector_as_bytes(v), len(v)) == v, the byte form has exactly ceil(len/8) bytes, and whatever the unused bits of the last byte (or further bytes) contain, they do not change the result.",
  "every bit vector of every length and every content of the unused bits",
  "all lengths modulo 8 and all contents; tests give two literals",
  [TBQ+"perturbation_vector_as_bytes", TBQ+"perturbation_vector_from_bytes"])
p("Watermark record round-trip",
  "For every watermark whose perturbation vector has at most 255 bits, signature at most 255 bytes and text at most 255 UTF-8 bytes, serialize succeeds and deserialize of the result, followed by any trailing bytes, returns the identical watermark.",
  "every watermark within the limits (all texts, including multi-byte characters), every trailing byte string",
  "unbounded data; one literal is tested",
  [WM+"Watermark::serialize", WM+"deserialize"])
p("Watermark record limits are enforced, not truncated",
  "serialize aborts exactly when the perturbation vector has more than 255 bits or the signature or the UTF-8 text more than 255 bytes; when it succeeds the length is exactly 3 + ceil(bits/8) + signature + text, and two different watermarks never serialize to the same bytes.",
  "every watermark of every size",
  "a silent truncation would only show for particular sizes",
  [WM+"Watermark::serialize"])
p("Watermark parser on arbitrary bytes",
  "On arbitrary bytes deserialize either aborts or returns a watermark; it succeeds exactly when the input has at least 3 bytes, covers the three sections announced by its header, and the text section is valid UTF-8. Whatever it returns can be serialized again and re-parses to the same watermark.",
  "every byte string",
  "adversarial inputs: all byte strings",
  [WM+"deserialize"])
p("Length-prefixed payload record",
  "The payload record of 1..=65535 bytes round-trips (trailing bytes ignored); serialization aborts exactly for more than 65535 bytes; the empty payload serializes but its record can never be read back on its own (deserialize aborts).",
  "every payload of every length, every trailing byte string",
  "size limits and the empty case are not tested",
  [DATA+"Data::serialize", DATA+"deserialize"])
p("Channel coding round-trip for supported capacities",
  "For a capacity of 16, 32, 64, 128, 256, 512 bytes or at least 1024 bytes, and every input of at most 65535 bytes, decode(encode(input, capacity), capacity) returns input, provided the LDPC library decodes its own clean codewords.",
  "every input up to 65535 bytes, every supported capacity, every LDPC implementation meeting the clean-codeword contract",
  "tests cover fourteen literals",
  [ENC+"encode", ENC+"decode", ENC+"get_code_by_codeword_length"])
p("Channel decoding corrects block errors and ignores trailing blocks",
  "If every received block that carries data is decodable by the LDPC library to the block that was sent, then decode returns the original input, no matter what full-size blocks follow; the result depends only on the data-carrying blocks.",
  "every input, every corruption pattern that is decodable block by block, every number and content of trailing blocks",
  "the set of error patterns is exponential",
  [ENC+"decode"])
p("Channel coding silently loses data outside its domain",
  "For every other capacity (for example 17 or 300 bytes) decode(encode(x)) returns x with two extra header bytes in front instead of x; and for every input of at least 65536 bytes with a supported capacity the decoded result is never the input. The unused table of codes for decoding names the same code wherever the coding applies one, and one for every other length from 16 bytes on.",
  "every unsupported capacity with every input; every supported capacity with every input longer than 65535 bytes",
  "needs all capacities; the tests never use an unsupported one",
  [ENC+"encode", ENC+"decode", ENC+"get_code_by_codeword_length"])
p("Encoded size",
  "With a supported capacity the encoded output of an input of n bytes has exactly ceil((n+2)/(k/8))*(n_code/8) bytes; decode aborts on every input whose length is not a multiple of the code's block size and on the empty input.",
  "every input length, every capacity, every received byte string",
  "all lengths",
  [ENC+"encode", ENC+"decode"])
p("Writing then reading a square coefficient domain",
  "For every square coefficient domain, every depth > 0 and every byte string that fits the capacity, reading after writing returns exactly the written bytes followed by what the domain read as before from that position on. True in exact arithmetic and in IEEE double arithmetic for coefficients up to 2^40 depths.",
  "every square size, every coefficient values, every depth > 0, every byte string up to capacity",
  "all sizes and all real coefficient values",
  ["embedding/src/io/mod.rs:write", "embedding/src/io/mod.rs:read", STE+"write_bit", STE+"read_bit"])
p("Non-square coefficient domains do not work",
  "If the domain has more rows than columns, writing any byte string with more bits than columns aborts, and reading a domain of at least one byte with rows > columns >= 1 aborts. If it has fewer rows than columns, distinct bit positions share a cell, so there are byte strings within capacity that are not read back.",
  "every non-square domain size",
  "the tests only use square domains",
  [STE+"get_column_and_row", STE+"write", STE+"read"])
p("Coefficient noise margin is a quarter of the depth",
  "After a bit is written with depth d > 0, any additive change of the coefficient by less than d/4 leaves the read bit unchanged; for every larger bound there is a change that flips it.",
  "every coefficient, every depth > 0, every noise below d/4; sharpness for every eps > 0",
  "ranges over real noise",
  [STE+"write_bit", STE+"read_bit"])
p("Writing changes coefficients by at most 3/4 depth and touches nothing else",
  "Writing a byte string into a square domain changes the coefficients in the first 8*len cells in row-major order by at most 0.75*depth each and leaves every other coefficient bit-identical; if the data exceeds the capacity the write aborts.",
  "every square domain, every byte string, every depth > 0",
  "all cells, all values",
  [STE+"write", STE+"write_bit", STE+"get_capacity"])
p("Wavelet transform: perfect reconstruction",
  "For every matrix whose dimensions are divisible by 2^L (1 <= L <= 31), the backward transform of the forward transform is the original matrix, and vice versa, in exact arithmetic; in IEEE double arithmetic the backward transform differs from the exact inverse by a bound proportional to the unit roundoff.",
  "every matrix size divisible by 2^L, every L from 1 to 31, all entries",
  "linear-algebra identity over all matrices, sizes and levels",
  [HAAR+"dwt_2d", HAAR+"dwt_1d"])
p("Wavelet transform preserves energy",
  "In exact arithmetic the sum of squares of all coefficients after the forward transform (any number of levels) equals the sum of squares of the input.",
  "every matrix of size divisible by 2^L, every L from 1 to 31",
  "identity over all matrices",
  [HAAR+"dwt_2d"])
p("The embedding domain is the scaled block average",
  "In exact arithmetic entry (i,j) of the L-level low-low corner is the sum of the 2^L x 2^L pixel block at (i,j) divided by 2^L; changing one low-low coefficient by t changes exactly the pixels of its block, each by t/2^L.",
  "every matrix size divisible by 2^L, every L from 1 to 31, every coefficient and every t",
  "identity over all sizes and levels",
  [HAAR+"dwt_2d", EMB+"embed"])
p("Embed then extract returns the payload",
  "For a square image whose side is a multiple of 2^L, with supported and block-aligned capacity, a payload of 1..=65533 bytes whose encoding fits, embedding depth d with d > 2^(L+1) (plus a tiny slack in double arithmetic), and every pixel at distance at least 0.75*d/2^L from 0 and 255: extract(embed(image, payload, d, L), d, L) == payload. Holds in exact arithmetic and in IEEE double arithmetic.",
  "every such image (all sizes, all pixel contents), every payload, every depth and level in range, every LDPC implementation decoding clean codewords",
  "one 32x32 image with one payload is tested",
  [EMB+"embed", EMB+"extract"])
p("Embedding distortion bound",
  "Every pixel of embed's output differs from the source pixel by at most 0.75*depth/2^L + 1/2 (exact arithmetic; plus a tiny slack in double arithmetic, for depths of at least 1), for every image including saturated ones, and the dimensions are unchanged.",
  "every square image, every payload that embed accepts, every depth > 0",
  "worst-case bound over all images and payloads",
  [EMB+"embed"])
p("Extraction tolerates later pixel noise",
  "Under the conditions of the embed/extract round-trip, the payload is still extracted exactly from every image that differs from the watermarked one by at most t per pixel, whenever d > 2^(L+1)*(2t+1).",
  "every image within t of the watermarked image in every pixel",
  "the neighbourhood has (2t+1)^(pixels) members",
  [EMB+"extract", EMB+"embed"])
p("Saturated images lose data",
  "Without the distance condition on pixels the round-trip fails. In exact arithmetic, for every depth d > 0 other than 2^(L+1), marking the all-black image leaves no trace of the payload: what is read back is 0xFF bytes whatever was embedded, so of any two different payloads that embed accepts at least one is not returned by extract.",
  "every side length, level count and depth > 0 except d = 2^(L+1), every pair of payloads, whatever the LDPC library does",
  "a universally quantified failure",
  [EMB+"embed", EMB+"extract"])
p("Too little capacity is reported, never truncated",
  "embed aborts whenever the encoded payload does not fit the low-low domain, the domain has less than 9 bytes, or the payload exceeds 65535 bytes; if embed succeeds the payload did fit.",
  "every image size, payload and level",
  "all size combinations",
  [EMB+"embed", EMB+"get_domain_capacity", STE+"write"])
p("Accepted payloads that can never be extracted",
  "embed accepts the empty payload and payloads of 65534 and 65535 bytes (given a large enough image), but extract can never return them: the header arithmetic makes extraction abort. The same holds for every capacity that is not supported by the channel code, whatever the payload.",
  "every image, every depth, every payload of these lengths / every unsupported capacity",
  "needs gigantic images or unusual sizes; universally quantified",
  [EMB+"embed", EMB+"extract", ENC+"encode", DATA+"deserialize"])
p("Integer byte conversions",
  "vec_u16_from_bytes/vec_i64_from_bytes invert vec_u16_to_bytes/vec_i64_to_bytes for every vector; the byte form has 2 (8) bytes per integer, is injective, and parsing aborts exactly on lengths that are not multiples of 2 (8).",
  "every vector of u16 / i64, every byte string",
  "all values and lengths",
  [BYT+"vec_u16_to_bytes", BYT+"vec_u16_from_bytes", BYT+"vec_i64_to_bytes", BYT+"vec_i64_from_bytes"])
p("Hex round-trip and rejection",
  "decode_hex(encode_hex(b)) == Ok(b) for every byte string and encode_hex has length 2*len and only lower-case hex digits; decode_hex never accepts an odd-length ASCII string (it aborts unless an earlier pair already gave Err); an even-length ASCII string is accepted exactly if each pair is two hex digits of either case or '+' followed by a hex digit (so decode_hex(\"+f\") succeeds).",
  "every byte string, every ASCII string",
  "all strings; the '+' quirk is never tested",
  [FMT+"decode_hex", FMT+"encode_hex"])
p("Number and identity of features",
  "calculate_features for Zernike moments returns exactly features_amount values for every features_amount >= 1, for the orders 2n-1 and the indices 1,3,...,2n-1; features_amount = 0 aborts; the other feature types return no features. An image with at least one row and more columns than rows (second dimension greater than the first) makes the computation abort; one with at most as many columns as rows never does, down to images of one pixel or none.",
  "every features_amount and every image size",
  "all amounts and sizes; tests use 3 on 8x8",
  [ZL+"calculate_features", ZL+"get_order_by_features_amount", "image-features/src/lib.rs:calculate_features", ZC+"calculate_zernike_image_moment"])
p("Features are invariant under the symmetries of the square",
  "In exact arithmetic all Zernike features of a square image are unchanged when the image is rotated by 90, 180 or 270 degrees, transposed or mirrored.",
  "every square image of side >= 2, every features_amount",
  "identity over all images",
  [ZC+"calculate_zernike_image_moment", ZC+"get_zernike_matrix", ZL+"calculate_features"])
p("Centrally symmetric images have zero features",
  "In exact arithmetic every Zernike feature (all orders used are odd) of an image that equals its own 180 degree rotation is exactly 0, so all such images, for example all constant images, have the same quantized features.",
  "every centrally symmetric square image of side >= 2, every features_amount",
  "tested for one constant image",
  [ZL+"calculate_features", ZC+"calculate_zernike_image_moment"])
p("Zernike radial polynomials",
  "The radial function equals the standard Zernike radial polynomial: all its coefficients are integers, it has the parity of the order, and its value at radius 1 is 1, for all index <= order of equal parity.",
  "every order and every index <= order of equal parity",
  "identity over all orders; tests check three radii of one (odd) pair",
  [ZC+"radial", ZC+"f", "utils/src/math.rs:factorial"])
p("All pixels are inside the unit disc",
  "to_polar maps every pixel position (1..=n, 1..=n) of an n x n grid, n >= 2, into the closed unit disc, and the four corners onto its boundary.",
  "every n >= 2 and every pixel",
  "all sizes",
  [ZC+"to_polar", ZC+"get_zernike_matrix"])
p("factorial",
  "factorial(n) is n! for every natural number n, and the recursion never terminates for a negative integer.",
  "every natural number, every negative integer",
  "induction over all naturals; non-termination cannot be tested",
  ["utils/src/math.rs:factorial"])
p("watermark keeps the image's shape, colour class and alpha",
  "watermark returns an image of the same width and height, of the 8-bit colour type with the same has_color/has_alpha, whose alpha channel equals the source's alpha exactly; grey images yield exactly the watermarked single channel (no luma rounding loss).",
  "every image of every colour type on which watermark succeeds",
  "all images and colour types",
  [WLIB+"watermark"])
p("Colour channels are processed independently",
  "Each output colour channel is watermark_channel applied to the corresponding source channel: if two images agree on a channel (and have the same colour class and size) and both runs succeed then the outputs agree on that channel; watermark fails exactly if a processed channel fails.",
  "every pair of images",
  "relational property over pairs of inputs",
  [WLIB+"watermark", PROC+"watermark_channel"])
p("A watermarked channel authenticates",
  "authenticate_channel(watermark_channel(c)) is true for every square channel satisfying the embed/extract conditions with 1..=85 features, provided each feature of the (equalized) watermarked channel differs from the source's by at most one quantization step and the signature library verifies its own signatures.",
  "every channel, step, depth and features_amount satisfying the stated conditions (exact arithmetic; double arithmetic with margins)",
  "one image is tested",
  [PROC+"watermark_channel", PROC+"authenticate_channel"])
p("Authentication only accepts signed feature cells",
  "authenticate_channel returns true exactly if a record can be extracted and parsed, the feature cells restored with its perturbation bits exist, and the record's signature verifies for them under the built-in public key. For a marked channel (also with noise) this means: if it is accepted then its restored feature cells are the source's signed ones, or the very signature that was made for the source's cells verifies for another message as well.",
  "every channel; every noisy version of a marked channel within the noise bound",
  "all images and all attacks that keep the record",
  [PROC+"authenticate_channel", "signature/src/lib.rs:verify"])
p("Authentication covers only the features stored in the record",
  "The number of checked features is dictated by the embedded record, not by the verifier's features_amount: a record with fewer features authenticates regardless of the remaining features, including a record with no perturbation bits at all, for which no image feature is checked.",
  "every channel carrying such a record",
  "security-relevant universal statement",
  [PROC+"authenticate_channel", TBQ+"three_bit_dequantization"])
p("Which images watermark_channel rejects",
  "watermark_channel aborts for features_amount 0 or greater than 85, for every image without pixels, for every image whose height exceeds its width, for every image wider than high unless 8*encoded length <= height/8, and for every square image whose 1/8-scale domain cannot hold the 88-or-more-byte record; the smallest accepted square side is stated exactly.",
  "every image size, every features_amount",
  "all sizes",
  [PROC+"watermark_channel", EMB+"embed"])
p("Pseudo-random generator stays in range",
  "In IEEE double arithmetic generate_unit always returns a number in [0,1) and generate(a,b) one in [a,b] for finite doubles a <= b whose difference does not overflow ([a,b) in exact arithmetic; in doubles b itself can be returned); each call increments the seed by one, the i-th number after seeding with s is the first one after seeding with s+i, and only the seed usize::MAX aborts.",
  "every seed, every interval, every call sequence",
  "100 values of one seed are tested",
  ["utils/src/pseudo_random.rs:PseudoRandom"])
p("Batch command line processing",
  "Processing a list of files writes, for each input, the file <stem>-<suffix>.<ext> in the output folder with the watermarked content of the input as it was before the run, provided no output path equals an input path and outputs are pairwise distinct; no other file changes; processing stops at the first failing input leaving the outputs of earlier inputs complete; without a suffix nothing is written. Without the provisos it is false: an output may overwrite a later input or an earlier output.",
  "every file system content, every list of inputs",
  "all histories of a stateful batch",
  ["cli/src/main.rs:process"])
p("Elapsed time display",
  "The displayed time is always a truncation: displayed value <= elapsed < displayed value + one displayed unit, with exactly one of the five formats chosen.",
  "every duration",
  "all durations",
  ["cli/src/timer.rs:Elapsed"])
p("Nested vectors to matrix",
  "vector_2d_as_nd_array(v)[i][j] == v[i][j] for every rectangular nested vector; an empty vector aborts; a ragged vector aborts unless its total size happens to be rows * (length of the first row).",
  "every nested vector",
  "all shapes",
  ["utils/src/lib.rs:vector_2d_as_nd_array"])
p("Extraction from arbitrary images is partial",
  "extract (and therefore authenticate_channel) may abort instead of reporting failure: for every unsupported capacity every all-black (unmarked) square image makes extract abort, at every depth > 0.",
  "every all-black square image with unsupported capacity, every depth",
  "universally quantified failure",
  [EMB+"extract", PROC+"authenticate_channel"])
p("Extraction corrects damaged blocks",
  "If the LDPC library corrects b flipped bits per block then, under the conditions of the embed/extract round-trip, the payload is extracted exactly from every image in which each data-carrying code block has at most b cells containing a pixel changed by more than t; those pixels, and all pixels that carry no data, may be changed arbitrarily.",
  "every image, payload, depth, noise bound t with d > 2^(L+1)*(2t+1), every damaged image of the same size with at most b damaged cells per code block; exact and IEEE double arithmetic",
  "ranges over all damage patterns; tests use the undamaged image",
  [EMB+"extract", ENC+"decode"])
p("Sizes whose watermark can never be read",
  "If the capacity of the embedding domain of a square image is supported by a code but is not a multiple of that code's block size (for example every capacity above 1024 bytes that is not a multiple of 1024, as for 1000 x 1000 pixels at three levels), extract aborts on every image of that size, marked or not, while embed accepts every payload of at most 508 bytes for it.",
  "every such size, every image, every depth, every LDPC library",
  "universally quantified failure; the tests use 512 x 512 and multiples of 1024 only",
  [EMB+"embed", EMB+"extract", ENC+"decode"])
p("Features are bounded and change slowly",
  "Each of the a features of a square 8-bit image lies between 0 and (2a/pi) times the mean pixel value; the features of two images of equal size differ by at most (2a/pi) times their mean absolute pixel difference (because the radial Zernike polynomials are bounded by 1 on [0,1]). Hence a marked channel authenticates whenever its equalized pixels differ from the source's by at most pi*step/(2a) on average.",
  "every square image, every pair of images, every number of features >= 1 (exact arithmetic)",
  "analytic bound over all images",
  ["image-features/src/lib.rs:calculate_features", "zernike/src/calc.rs:moment", PROC+"authenticate_channel"])
p("Signing and verifying round-trip",
  "For every key pair the signature library accepts, verify(data, sign(data, k)) is true for the hex keys that generate returns; sign succeeds exactly if both texts are hex and form an acceptable pair, and verify returns the library's verdict exactly if key and signature parse; on every signature that is not 64 bytes long verify aborts instead of returning false.",
  "every message, key pair, signature, key text",
  "all messages and malformed inputs",
  ["signature/src/lib.rs:sign", "signature/src/lib.rs:verify", "signature/src/keypair.rs:generate"])
p("Which sides of square images can be read back",
  "At the three levels the program uses, of all accepted square sides exactly 512, the multiples of 1024 and the sides >= 1024 congruent to 8 or -8 modulo 32768 or to 16 or -16 modulo 16384 have a readable watermark; on every other accepted side marking succeeds and authentication of the marked channel, and of every noisy version within the noise bound, aborts.",
  "every side, every channel meeting the embedding conditions, every noise within the bound",
  "universally quantified failure",
  [PROC+"watermark_channel", PROC+"authenticate_channel", ENC+"decode"])
p("Non-square images never authenticate",
  "authenticate_channel aborts on every channel whose width and height differ, marked or not, whatever the parameters and the libraries.",
  "every non-square channel, every depth, step, features_amount and number of levels",
  "universally quantified failure",
  [PROC+"authenticate_channel"])
p("Brightness and contrast changes are tolerated",
  "Features are unchanged by every strictly increasing change of the samples (histogram equalisation undoes it). Hence authentication gives the same answer for a marked channel and for every version of it in which the samples were changed by an increasing map that moves each sample by at most the noise bound t (such as a brightness offset of at most t that does not saturate).",
  "every marked channel meeting the embedding conditions, every increasing map (equalisation depends on the order of the samples only)",
  "all images and all intensity maps",
  [PROC+"authenticate_channel", PROC+"watermark_channel"])
p("Watermarking an image is a bounded change",
  "watermark changes no colour or grey sample of a square image by more than 3/32*depth + 1/2 (9 levels for the default depth 100) and no alpha sample at all; a channel at L levels changes by at most 3/4*depth/2^L + 1/2.",
  "every square image of every colour type, every depth > 0, step and features_amount (exact arithmetic, and IEEE double arithmetic for depths from 1 to 2^20 with a relative slack of 2^-26)",
  "all images",
  ["watermarking/src/lib.rs:watermark", PROC+"watermark_channel"])
p("Whole-number arithmetic done in f64 is exact",
  "Wherever the code computes an integer quotient in f64 (capacity of a block of coefficients, row of a bit, cell positions, number of bytes for a number of bits), the result rounded down or up to an integer equals the exact integer quotient for all operands below 2^53.",
  "every pair of operands 0 <= a < 2^53, 0 < b < 2^53, IEEE double arithmetic",
  "all operands; rounding could push a quotient across an integer",
  ["embedding/src/io/steganography.rs:get_capacity", "embedding/src/io/steganography.rs:get_column_and_row", "three-bit-quantization/src/lib.rs", "zernike/src/calc.rs"])
p("Approximate comparison helpers",
  "assert_approximately_equal passes only if both numbers are finite and their exact difference is below the double nearest to 0.0001, and passes whenever the difference is at most 0.00009; assert_approximately_equals_1d passes exactly if every element of `actual` has a counterpart in `expected` that passes: surplus elements abort, missing ones are never noticed (an empty `actual` always passes). The same holds for matrices of numbers and of complex numbers, where complex numbers and pairs pass exactly if both parts do.",
  "every pair of doubles including NaN and infinities, every pair of vectors",
  "all doubles and all lengths",
  ["utils/src/lib.rs:assert_approximately_equal", "utils/src/lib.rs:assert_approximately_equals_1d", "utils/src/lib.rs:assert_approximately_equals_2d", "utils/src/lib.rs:assert_approximately_equals_2d_complex"])
p("Every wavelet coefficient is determined",
  "In dwt_2d(image, L, false) every detail coefficient of every level k < L is a signed sum of the four 2^k x 2^k blocks that make up its 2^(k+1) x 2^(k+1) block of the image, divided by 2^(k+1): left minus right in the upper right part, top minus bottom in the lower left part, both in the lower right part. With the block sums of the corner this determines the whole transform.",
  "every image with dimensions divisible by 2^L, every level, every position (exact arithmetic)",
  "all images and levels",
  ["embedding/src/haar/mod.rs:dwt_2d"])
p("Image bytes reach the library unchanged in the browser",
  "base64ToUInt8Array applied to the data URL the browser makes from a blob (and to the stripped data URL of a chosen file) returns exactly the blob's bytes if its media type is image/ followed by ASCII letters and digits, and throws for every other media type (image/svg+xml, image/x-icon, application/octet-stream, unknown); a string with a foreign character always throws.",
  "every media type and every byte sequence",
  "all contents, lengths modulo 3 and media types",
  ["src/Content/utils.ts:base64ToUInt8Array", "src/Content/utils.ts:fileToBase64"])
p("What the browser shows for an image",
  "get_watermarking_process succeeds exactly if the format is recognised, the image decodes and watermark succeeds with 11 features. Its two images have the source's size and exactly width*height*4 bytes; the first holds the decoded pixels row by row as RGBA, the second the watermarked pixels with the source's alpha (255 without alpha); the canvases draw exactly these bytes. With the page's settings (depth 500) colour samples of a square image differ by at most 47 levels.",
  "every blob, every decoder, every image size and colour type, every depth and step",
  "all images",
  ["web/src/lib.rs:get_watermarking_process", "web/src/lib.rs:get_image_model", "src/Content/Content.tsx:getWatermarkingProcess", "src/Canvas/Canvas.tsx:Canvas"])
p("Which image the page shows",
  "At every moment the page shows the pair delivered by the last load that ended successfully (of the demo image or of a chosen file), never parts of two of them; failing loads, cancelled dialogs and mere choices change nothing. If readers end in the order of the choices, the last chosen file is shown; if an earlier file's reader ends later, the page shows the earlier file; if the demo image never loads, no file can be chosen; in a development build the second demo load can replace a chosen file.",
  "every sequence of events: any number of files chosen, readers ending or failing in any order",
  "all schedules of asynchronous readers",
  ["src/Content/Content.tsx:Content", "src/Content/utils.ts:toDataURL", "src/Content/utils.ts:fileToBase64"])
p("Extraction sees only block sums",
  "extract returns the same bytes, or the same abort, for any two images of the same size whose sums over the 2^levels x 2^levels blocks agree modulo 2^levels times the depth: rearranging pixels inside blocks in any way, or brightening whole blocks by s levels with s*2^levels a multiple of the depth, goes unnoticed (exact arithmetic).",
  "every pair of images, every positive depth, every number of levels, every code, every family of permutations of the blocks",
  "all images and rearrangements",
  ["embedding/src/lib.rs:extract", "embedding/src/haar/mod.rs:dwt_2d", "embedding/src/io/steganography.rs:read"])
p("Embedding the same payload again",
  "embed(embed(image, payload), payload) with the same depth and levels succeeds whenever the first embed did; in exact arithmetic it changes no pixel (for unsaturated images and depth above 2^(levels+1)), in double arithmetic it changes each pixel by at most one level, and none if no block's way to its two values is halfway between two integers.",
  "every square image, payload, depth and number of levels meeting the signal conditions",
  "all images and payloads",
  ["embedding/src/lib.rs:embed", "embedding/src/io/steganography.rs:write"])
p("Depths that are not positive",
  "Whether embed succeeds does not depend on the depth. With depth 0 or NaN it turns every block that should carry a bit black and leaves all others unchanged, and extract returns the same for all images of one size; extract ignores the sign of the depth, while writing with a negative depth writes the complement of every bit, so what is read back is the complement of the payload (double arithmetic).",
  "every image, payload and depth",
  "all doubles as depths, all images and payloads",
  ["embedding/src/lib.rs:embed", "embedding/src/lib.rs:extract", "embedding/src/io/steganography.rs:read", "embedding/src/io/steganography.rs:write"])
p("A step of zero switches content authentication off",
  "With step 0.0 every positive feature falls into the largest cell, a zero or NaN one into cell 0, and a negative one aborts; the verdict of authenticate is the same for any two pictures carrying the same record, and a channel marked with step 0 authenticates after every change of content that keeps the embedded bits readable (double arithmetic, positive features).",
  "every list of positive double features, every picture, every change",
  "all features and pictures",
  ["three-bit-quantization/src/lib.rs:quantize", "three-bit-quantization/src/lib.rs:three_bit_quantization", "three-bit-quantization/src/lib.rs:three_bit_dequantization", "watermarking/src/process.rs:authenticate_channel", "watermarking/src/process.rs:watermark_channel"])
p("Features in double precision are accurate",
  "With any mathematical library accurate to one unit in the last place, calculate_features of an image with 2 to 2^14 rows and at least one, at most as many columns (1 to 11 features) in IEEE double arithmetic returns finite numbers, one per feature, each within 1/400 of the exact value, which for a square image is the modulus of the Zernike moment and otherwise rows/columns times that of the square image obtained by writing the pixels one after the other and filling up with zeros; no features requested or more columns than rows: abort. Hence on square images the eight symmetries of the square change the computed features by at most 1/200, a centrally symmetric image has computed features of at most 1/400, and two images' computed features differ by at most 2a/pi times the mean pixel difference plus 1/200. For up to 20 features an explicit error bound holds.",
  "every image of 2 to 2^14 rows and 1 to as many columns, 1 to 11 features (20 for the general bound), every mathematical library meeting the contract",
  "rounding errors and cancellation for all images and libraries",
  ["zernike/src/calc.rs", "zernike/src/lib.rs:calculate_features"])
p("Marked channels authenticate, from pixels to verdict in double precision",
  "If the received channel differs from the marked one by at most t in every pixel, equalisation moves the pixels by at most pi*(step - 1/200)/(2a) on average, and no exact moment of the equalised source or received channel is within 1/400 + step/65536 of a multiple of half a step, then authenticate_channel of the received channel returns true, all arithmetic (features, quantisation, wavelets, cells) being IEEE doubles.",
  "every square channel of side up to 2^14 meeting the signal conditions, 1 to 11 features, step 2^-20 to 2^100, every code that decodes clean words, every key pair, every library meeting the contract, every received channel",
  "all images, all noise patterns, all roundings",
  [PROC+"watermark_channel", PROC+"authenticate_channel", "zernike/src/calc.rs", "three-bit-quantization/src/lib.rs"])
p("factorial in double precision",
  "factorial(n) as a double is exactly n! for n <= 22, within a relative error of 2^-50 of n! for n <= 170, and infinity for whole n from 171 to 2^53 + 2; it never returns for negative whole numbers and for doubles above 2^53 + 2 (where n - 1 rounds back to a number above 2^53 + 2); for every other double it is gamma(1 + x).",
  "every double: whole, fractional, negative, infinite, NaN",
  "all arguments; non-termination cannot be tested",
  ["utils/src/math.rs:factorial"])

p("The command line is read as documented",
  "The tool accepts exactly the command lines made of file names (words not beginning with a dash, or a single dash), -s/-o with a value (joined, separate, or after -- with = or separate), -h/--help (also clustered before -s/-o), and everything after --, with no option given twice; it then works on the files in the order given, with that suffix and folder wherever they stood. Any other command line ends the program before anything is changed; with help, without files or without a suffix it ends normally and changes nothing.",
  "every list of words",
  "infinitely many command lines and orders of words",
  ["cli/src/main.rs:main"])
p("What the tool writes authenticates",
  "After a run without output collisions every output file can be read back, and all colour channels of the picture read back get the verdict true with the tool's settings (depth 100, step 1, 11 features, 3 levels), if the source channels have a readable side and no pixels near 0 or 255, the codec changes no pixel of the marked picture by more than the noise t allowed by the depth, and marking, coding and equalisation move no feature by more than one step.",
  "every file system, list of inputs, lossless or lossy codec, code and key pair meeting the contracts",
  "all pictures, codecs and batches",
  ["cli/src/main.rs:process", "watermarking/src/lib.rs:watermark", PROC+"authenticate_channel"])
p("The tool's report is true",
  "Among the tool's own lines (the library's debugging output aside), the k-th line 'Watermarked P (c -> c channels) in T' is printed only when the output file P of the k-th input holds everything the encoder wrote for the watermarked picture, at whatever point the run is observed; the two channel counts are always equal; a run prints as many such lines as there are inputs if it ends normally and fewer otherwise; without a suffix it prints one line and changes nothing.",
  "every file system, list of inputs, codec, clock, every point of the run",
  "all histories of a run",
  ["cli/src/main.rs:process", "cli/src/timer.rs"])

p("The signature binds a record to feature cells only",
  "Whoever can read one accepted picture can, without the secret key, embed its perturbation bits and signature with any text of at most 255 bytes into any other suitable picture, and every result whose features are restored to the same cells is accepted; the text has no influence on the verdict. In exact arithmetic: every picture whose features are within one step of the signed ones is accepted with that record, and a mirrored or rotated picture has exactly the record of the original, so that the extracted bytes embedded into it give what the key holder would have produced.",
  "every accepted picture, every other picture, text, depth, number of levels, all eight symmetries",
  "all pairs of pictures; absence of a protection",
  [PROC+"authenticate_channel", PROC+"watermark_channel", "watermarking/src/watermark.rs:deserialize", "embedding/src/lib.rs:embed"])
p("Steps outside the range of the features switch content authentication off",
  "In double arithmetic, if every feature is at least 2^64 steps, all features fall into the largest cell whatever their values and perturbation bits, and a marked channel authenticates after every change of content that keeps the embedded bits readable and the features that large. In exact arithmetic, with a features and a step of at least 510 a / pi (1786 for the 11 features the programs use), every square picture carrying the record of a marked channel is accepted. The program in double precision, with a step of at least 16384 and up to 11 features, writes one and the same record into every picture and accepts every picture that carries it.",
  "every list of features, every step, every picture",
  "all features and pictures",
  ["three-bit-quantization/src/lib.rs:quantize", "three-bit-quantization/src/lib.rs:three_bit_dequantization", PROC+"authenticate_channel"])

p("What the page shows authenticates",
  "In every session of the web page in which all file readers have ended, in the order of the choices, and the last file was readable and its channels are markable, the second canvas shows the marked version of that last file, and every colour channel saved from that canvas, even with a pixel error up to the noise allowed by the depth, gets the verdict true with the page's settings (depth 500, step 1, 11 features, 3 levels), if marking and saving move no feature by more than one step.",
  "every session (sequence of arrivals, choices, cancellations and reader ends), file, picture, noise, code and key pair meeting the contracts",
  "all schedules of readers and all pictures",
  ["web/src/lib.rs:get_watermarking_process", "src/Content/Content.tsx:Content", PROC+"authenticate_channel"])

p("Exit status of the command line tool",
  "The tool exits with status 0 exactly if the command line was understood and either asked for no work (help, no files or no suffix) or every input, in turn, was read, decoded, watermarked and stored in the usable output folder (or, without one, in the current folder); then the files are as completing the inputs one after the other leaves them. It exits with status 1 exactly if there was work and the output names something that exists and is not a folder; then it prints one line saying so and changes no file. In every other case the status is 101.",
  "every command line, file system, codec and picture",
  "all command lines and histories of a run",
  ["cli/src/main.rs:process", "cli/src/main.rs:main"])

p("Debug and release builds, 32-bit and 64-bit targets agree",
  "For every image whose sides are below 2^31 and whose pixel count is below 2^53 and a usize (and whose squared width is a usize), embed, extract, watermark_channel, authenticate_channel and watermark return the same values whether or not integer overflow is checked and whether usize has 32 or 64 bits, namely those computed with unbounded integers, for every depth, payload and number of levels (including 0 and those beyond 30) and every step that is not negative. The exceptions: a feature at or below -2^63 steps makes quantization panic in a debug build only; the inverse transform of more than 32 levels aborts in every build, but with different panics; the pseudo-random generator seeded with the largest usize panics in a debug build and continues with seed 0 in a release build; a side from 2^31 to 2^32-1 makes embed and extract panic on 64-bit targets.",
  "every build, target, image, payload, depth, step, number of levels and features",
  "all inputs on several platforms at once",
  ["embedding/src/haar/mod.rs:dwt_2d", "embedding/src/lib.rs:embed", "embedding/src/io/steganography.rs", "encoding/src/lib.rs", "three-bit-quantization/src/lib.rs", "zernike/src/lib.rs:get_order_by_features_amount", "utils/src/pseudo_random.rs"])

p("Objects handed to the page keep their values",
  "The image and process objects the wasm library gives to JavaScript behave as values, over every history of calls: a getter returns what the constructor or the last setter on that object was given (sizes modulo 2^32) whatever is done to other objects; get_source and get_watermarked return new objects, changes to which do not reach the process; an object passed by value to a constructor or setter, or freed, is empty afterwards and every later use of it throws. Bytes are the exception: all copies of an image share one array, so a store through one is seen through all. The page's own record (made when a file is shown) has the format, sizes and bytes of the computation's result, with its own copies of the bytes, and no later call changes it except a store into its arrays. The page's text names the format guessed from the file, in capital letters, and the size of the decoded picture, above two pictures of that size; where nothing could be computed it says it is loading.",
  "every history of calls on the objects, every file and setting, every later history",
  "all histories of calls and aliasings",
  ["web/src/image_model.rs", "web/src/watermarking_process.rs", "web/src/lib.rs:get_watermarking_process", "src/Content/utils.ts:toWatermarkingProcess", "src/WatermarkingPreview/WatermarkingPreview.tsx"])

p("What the library prints",
  "Marking or authenticating a channel prints, and the printing changes no result. Whatever happens, the labels printed by a marking call are the first lines of one fixed list (moment indices, moments, features, cells, perturbation bits, signature, record, record bytes, capacity, data, data with length, framed data, its bit length, and, if the capacity has a code, the code's size and the number of words); a call that succeeds prints the whole list, with exactly the values it used; how many lines a failing call printed tells where it failed. The same holds for authentication, whose lines do not depend on the signature check: the verdict cannot be read off the output. The record printed when a channel is marked is printed again when it, or anything within the noise bound, is authenticated. A picture that is marked prints the lines of its red, and if it has colour of its green and blue channel. No line of the library begins like the tool's report.",
  "every channel, depth, step, number of features and levels, code and key; every picture within the noise bound",
  "all inputs and all ways a call can fail",
  [PROC+"watermark_channel", PROC+"authenticate_channel", "embedding/src/io/data.rs", "embedding/src/lib.rs:get_domain_capacity", "encoding/src/lib.rs", "image-features/src/lib.rs", "zernike/src/lib.rs"])

p("A standard output that stops working",
  "If standard output accepts every line, the tool's changes, reports and exit status are the ordinary ones. If it fails after any number n of lines (closed pipe, full disk), the tool ends with status 101 and the files are exactly as after an ordinary successful run on the first k inputs, for some k with 13 k at most n: no output file is left half written because of it, and with a standard output closed from the start no file is changed. All of these k inputs have been reported, except possibly the last. On a batch without collisions every output file is either untouched or complete.",
  "every file system, codec, batch of inputs, suffix, folder and every number of lines accepted",
  "all points at which the output can fail",
  ["cli/src/main.rs:process", PROC+"watermark_channel"])

p("Which features are finite numbers",
  "In IEEE double arithmetic, calculate_features of an image with at most as many columns as rows returns exactly features_amount values (1 to 2^51), whatever the mathematical library and however small or large the image. They are all finite numbers or none is: all are finite if at most 85 features are requested and the image has at least two rows and one column (and at most 2^14 rows); none is (each is NaN or infinite) if 86 or more are requested, because the factorials overflow, or if the image has a single pixel or none.",
  "every image with at most as many columns as rows, every features_amount from 1 to 2^51, every mathematical library that is accurate to one unit in the last place and treats NaN and infinities as IEEE 754 says",
  "overflow and 0/0 for all images, amounts and libraries",
  ["zernike/src/calc.rs", "zernike/src/lib.rs:calculate_features", "utils/src/math.rs:factorial"])

p("The built-in keys belong together, and every generated pair works",
  "The signatures of the program are Ed25519 (RFC 8032, with SHA-512): for every 32-byte secret, the public key computed from it and the secret form a working pair, that is, both parse, every message signed with them gives 64 bytes that parse as a signature and verify under the public key. The public key built into the program is the one computed from the secret key built into it, so that everything watermark_channel signs, authenticate_channel verifies; a marked channel authenticates without any assumption about the keys.",
  "every secret of 32 bytes, every message, every image",
  "all secrets and messages; a wrong digit in a key constant would only show in an end-to-end test",
  ["signature/src/lib.rs:sign", "signature/src/lib.rs:verify", "signature/src/keypair.rs:generate", "signature/src/ecdsa.rs", PROC+"PRIVATE_KEY", PROC+"PUBLIC_KEY"])

p("What an accepted signature binds",
  "For a public key, a message and the first 32 bytes of a signature, at most one choice of the last 32 bytes is accepted: a signature cannot be altered there. A signature is accepted for a public key computed from a secret exactly if it has the form that the owner of the secret scalar would produce with some nonce. A signature accepted for one message is accepted for another one exactly if the SHA-512 hashes of the two (after the first half of the signature and the key) agree modulo the order of the base point. Hence if a marked channel is accepted although its restored cells are not the signed ones, or if two channels are accepted with the same signature bytes but different cells, then the two byte strings are a collision of that hash.",
  "every public key, message, signature and channel",
  "unforgeability statements range over all messages and signatures",
  ["signature/src/lib.rs:verify", "signature/src/ecdsa.rs", PROC+"authenticate_channel"])

p("The error-correcting codes the program uses repair two wrong bits per block, and not every three",
  "The codes are those of the CCSDS standards (TC128, TC256, TC512, TM2048, TM8192, rate 1/2) with the bit-flipping decoder, 20 rounds. The encoder keeps the data as the beginning of the code word, and the words it returns are exactly those that satisfy all parity checks, one for each data block; the code words of different data differ in at least five bits. For every data block and every received word that differs from its code word in at most two bits, decoding returns the data; for each code there are three places such that flipping them spoils the decoding of every data block. Hence decode inverts encode, encoded data survives two flipped bits in each block, embedded data survives arbitrary damage to two cells of each block, and a marked channel, what the command line tool wrote and what the page shows authenticate, without any assumption about the codes or the signatures.",
  "every code, data block, received word, input, capacity with a code, image, damage and noise",
  "all data blocks and all pairs of wrong bits (2^4096 data blocks of the largest code); a wrong entry of a matrix would show for some of them only",
  ["encoding/src/lib.rs:encode", "encoding/src/lib.rs:decode", "encoding/src/lib.rs:get_code_for_encode", "embedding/src/lib.rs:extract", PROC+"authenticate_channel", "cli/src/main.rs:process"])

p("Histogram equalisation in single precision, and the program with all its libraries",
  "Before features are computed the samples are equalised in f32: each sample becomes 255 times the share of the samples that do not exceed it, with an error of at most 2^-13, rounded down (so at most one level from the exact formula; equal to it for pictures of at most 2^17 samples and for those whose number of samples is a power of two up to 2^24, such as 512 x 512, but not for every picture of 418 x 418). Equalising keeps the order, sends the brightest samples to 255, is undone by no increasing change of the samples, and is idempotent. It is stable: if no sample moves by more than T and no 2T consecutive grey levels hold more than the share q of the samples, no equalised sample moves by more than 255 q + 1 + 2^-12. Consequently, with the codes, signatures, equalisation and double-precision moments of the program put in, and any mathematical library accurate to one unit in the last place: if the depth fits the noise t, no pixel is too close to black or white, and the moments of the equalised original divided by the step are further from the multiples of 1/2 than the shift that marking and noise can cause, then marking succeeds and every picture within t of the marked one authenticates; all conditions are on the picture before marking. The features that are used are the ones the float code computes, including where it aborts. Every build on every target returns the same.",
  "every list of fewer than 2^32 samples; every square channel, depth, step, amount of features up to 11, noise, mathematical library within its contract, build and target",
  "all pictures, all noises and all platforms' mathematical libraries",
  [PROC+"watermark_channel", PROC+"authenticate_channel", "zernike/src/lib.rs:calculate_features", "zernike/src/calc.rs", "image-features/src/lib.rs"])

p("Changed contents are noticed",
  "A feature that has moved by more than one and a half quantisation steps (plus the rounding of double precision) from the one that was marked is never restored to the marked cell, and one and a half steps is the best possible bound. Consequently the verdict on a received picture is decided by its contents as soon as the record can still be read, that is, as long as at most two cells of each code block that carries the record are damaged, whatever happened to the rest of the picture: authentication answers, with the marked cells if every feature is within one step of the marked one, and with a rejection if any feature is further than one and a half steps away, unless the SHA-512 hashes of the two cell lists (after the first half of the signature and the key) collide modulo the order of the base point. In particular painting the lower half of a marked 512 pixel picture white, which leaves the record intact, is noticed.",
  "every marked picture, depth, step, amount of features and every received picture whose record is readable",
  "all alterations of all pictures; a tampering test shows one alteration of one picture",
  [TBQ+"three_bit_dequantization", "embedding/src/lib.rs:extract", "encoding/src/lib.rs:decode", PROC+"authenticate_channel", PROC+"watermark_channel"])

p("Where the mark goes, and what it does to a block",
  "The mark is written block by block, in rows of blocks of 2^levels pixels from the upper left corner; the blocks after the encoded record keep their pixels exactly, in double precision and for saturated pictures too (so in a 512 pixel picture watermark never touches the lower half). In a block that receives a bit all pixels are moved by the same amount, (depth * (k + 1/4) - S) / 2^levels for a one and (depth * (k - 1/4) - S) / 2^levels for a zero, where S is the sum of the block's pixels divided by its side and k a nearest integer of S / depth, then rounded and kept between 0 and 255. A consequence is that a picture of one level need not survive its own marking: for every level between 10 and 245 whose eightfold is 30 to 48 above a multiple of the depth 100, the 512 pixel picture of that level is marked without an error (one feature, every step up to 8) and the marked picture is rejected, short of a collision of the signature's hash.",
  "every square picture, payload, depth of at least 1, level count, pixel; every mathematical library within its contract",
  "all pictures and payloads; that untouched blocks are reproduced exactly depends on the rounding of every transform step",
  ["embedding/src/lib.rs:embed", STE+"write", HAAR+"dwt_2d", PROC+"watermark_channel", PROC+"authenticate_channel"])

p("Unchanged features authenticate, and pictures without features",
  "Features that did not change always get their cells back, for every step and all values, borders of cells, infinities and NaN included; so a marked picture, or anything within the noise bound, whose features have the source's cells and bits is accepted. Every picture that is the same when turned by 180 degrees has features in cell 0 with bits 110, whatever it shows, so all such pictures are marked with one and the same record. There is a picture of side 512 which watermark with the settings of the tool (depth 100, step 1, 11 features, 3 levels) returns unchanged and which authenticate accepts, also after any increasing change of its levels by at most 2, in every build's mathematical library.",
  "every list of features, step, square picture, centrally symmetric picture up to 2^14 pixels wide, up to 11 features, every mathematical library within its contract",
  "all feature values and all symmetric pictures; that a picture is a fixed point must hold for every platform's mathematical library",
  [TBQ+"three_bit_quantization", TBQ+"three_bit_dequantization", PROC+"watermark_channel", PROC+"authenticate_channel", "zernike/src/lib.rs:calculate_features"])

p("What is read from a picture, however it came about",
  "Extraction sees only the sums of the blocks: if the sum over a block, divided by its side, is nearer than a quarter of the depth to a multiple of the depth plus (minus) a quarter of it, that cell is read as 1 (0), in double precision, for saturated pictures too, and whether or not the picture was produced by watermark. A picture whose blocks carry an encoded payload is read as that payload; the verdict on a picture that carries a record is the verification of the record's signature against the picture's own features restored with the record's bits. In particular every centrally symmetric picture of side 512 that carries the record of symmetric pictures is accepted, and each symmetric picture with levels between 10 and 245 can be turned into an accepted one by changing each pixel by at most 9 levels, without any key.",
  "every square picture, payload, record, depth of at least 1, level count; every mathematical library within its contract",
  "all pictures, including those no marking produced",
  ["embedding/src/lib.rs:extract", STE+"read", "encoding/src/lib.rs:decode", PROC+"authenticate_channel"])

p("The colours of a picture do not mix",
  "If each colour of one picture is some colour of another one of the same size, the same is true of the marked pictures, and the first can be marked whenever the second can: exchanging red and blue before or after marking makes no difference; a colour picture with only grey pixels stays grey and is marked exactly as the grey picture is, whatever the colour types and the alpha samples are. Conversely nothing ties the colours of a picture together: a picture whose red, green and blue come from three different pictures has the verdicts of those three channels.",
  "every picture of every colour type, every depth, step and amount of features, every arithmetic and all libraries",
  "all pictures and all ways to exchange their colours",
  ["watermarking/src/lib.rs:watermark", PROC+"watermark_channel", PROC+"authenticate_channel"])

p("Marking again and again",
  "Marking a picture that is already marked does not accumulate damage: however often a square picture is marked with the same depth, by whatever version of the libraries and with whatever steps and amounts of features, every block of 8 x 8 samples moves as a whole and is never further from the original than one single marking could bring it, 3/32 of the depth and half a level (in exact arithmetic for depths above 16; in double precision with the depth 100 of the tool: 9 levels), as long as the block keeps that distance from black and white (and, in double precision, the sum of the original block does not leave the remainder 8 when divided by 16, where rounding errors could decide a tie). The program can mark every square picture whose side is a multiple of 8, at least 216 and not 256, and so it can mark it any number of times.",
  "every number of markings, every square picture, payload and history of steps, amounts and libraries",
  "a history of markings of any length; a test marks once or twice",
  ["watermarking/src/lib.rs:watermark", PROC+"watermark_channel", "embedding/src/lib.rs:embed", STE+"write"])

p("The last marking wins",
  "Embedding into a picture that already carries a payload of at most the same encoded size gives, pixel by pixel, what embedding into the original gives: nothing is left of the earlier marks, and embedding the same payload again changes no pixel. So a picture marked any number of times, by whatever libraries and with whatever steps, is the original with the record of the last marking embedded once; and if its features still have the original's cells and bits, marking it again gives exactly the marked original. This holds block by block, with one depth (above 16 in exact arithmetic; 100 in double precision), for every block of 8 x 8 samples that keep the distance of one marking from black and white and, in double precision, whose sum does not leave the remainder 8 when divided by 16.",
  "every square picture, every block meeting the conditions, every history of payloads, every library and step",
  "all pictures and all histories; pixel equality must hold for every rounding of every transform step",
  ["embedding/src/lib.rs:embed", STE+"write", PROC+"watermark_channel", "watermarking/src/lib.rs:watermark"])

p("Running the tool on its own output",
  "However many times the command line tool is run, each run reading (among other inputs) the file the run before wrote, in a lossless format: that file always holds the original picture with exactly one record embedded, the one made for the picture read last, and no 8 x 8 block of a colour is moved as a whole by more than 9 levels from the original, in every block whose samples are between 10 and 245 and whose sum does not leave the remainder 8 when divided by 16. The program can be run so for ever without an error, if the picture is a square whose side is a multiple of 8, at least 216 and not 256, and the files can be written.",
  "every number of runs, every batch around the file, every suffix and folder, every lossless codec, every square picture",
  "histories of unbounded length; a test runs the tool once",
  ["cli/src/main.rs:process", "watermarking/src/lib.rs:watermark", "embedding/src/lib.rs:embed"])

p("Losses between markings do not add up",
  "A picture that is marked again and again with the settings of the tool, and that suffers a loss after each marking (a lossy format, an editor, dimming), keeps its brightness: as long as no single loss moves the mean of a block of 8 x 8 samples by more than 2.5 levels and the samples are between 10 and 245 before each marking, the mean of every block that carries a bit of the record is, after every marking, within 9.875 levels of the mean of the original block, however many generations have passed and however large the sum of all losses is. In exact and double arithmetic, for every depth: the loss that is made up for is a quarter of the depth less half a level per pixel. The program can mark a picture, dim it by two levels, mark it again and so on for ever, and no sample of a block that carries the record is ever more than 9 levels from the original after marking. The same for the command line tool run on its own output any number of times, in a lossy format that moves no block mean by more than 2.5 levels: what is read back is within 12.375 levels of the original's block means.",
  "every number of generations, every loss within the bound, every square picture, every library and step",
  "histories of unbounded length with arbitrary losses between the steps",
  ["watermarking/src/lib.rs:watermark", PROC+"watermark_channel", "embedding/src/lib.rs:embed", STE+"write"])

p("Several processes of the tool at the same time",
  "Any number of processes of the command line tool that run at the same time on one file system, none writing a file that another reads or writes, do not disturb one another, however the operating system interleaves them and whichever of them are killed at whatever point: at any time the output files of each process are as a first part of the changes it makes alone leaves them, files that are no process's output are unchanged, every process that is given as many steps as it has changes to make and inputs to read has ended, and then it ended the same way, with the same files, as alone. So a batch that one process completes without an error may be given to one process per input, in parallel, with the same result. Without the condition the result is up to the schedule: two processes that write the same output file leave either content.",
  "every number of processes, every schedule of their steps, every crash point, every batch, file system and codec",
  "all interleavings and all crash points; a test observes one schedule",
  ["cli/src/main.rs:process", "cli/src/main.rs:main"])

p("Running the tool again after a crash",
  "If no output of a command line is one of its inputs, attempts that were interrupted leave no trace: however many there were and wherever each was interrupted, the next complete run makes the same changes, ends the same way and leaves the same files as a run that was never interrupted, and a batch whose inputs can all be marked is completed by running it again. Without the condition this fails: a command whose second input is written over its first one marks, when run again, what it wrote itself.",
  "every number of interrupted attempts, every crash point, every batch, file system and codec",
  "all crash points and all histories of attempts; a test runs the tool once and to the end",
  ["cli/src/main.rs:process", "cli/src/main.rs:main"])

p("The output folder is made, and the tree stays a tree",
  "Giving an output folder makes the folders that are missing on the way to it, each inside one that is there already, and no other; a path of ordinary names can be made exactly if no file is in the way and the system allows what is missing, and if a file is in the way nothing is made. If the folder cannot be made, no file changes and the tool fails (status 1 if the path is a file); with an empty path it fails and changes nothing. Whatever the command line, and at whatever point a run is interrupted, no folder and no file is lost, every file lies in a folder, and the only new folders are those on the way to the output folder.",
  "every tree of folders and files, every output path (with dots, double and trailing slashes), every command line, every crash point",
  "all trees, all paths and all crash points; a test runs in one directory",
  ["cli/src/main.rs:process", "cli/src/main.rs:main"])

p("Outputs stay in the output folder",
  "If the suffix has no slash, the only files a run can change, at whatever point it is interrupted, are the outputs stem-suffix.ext of its inputs stem.ext, directly in the folder the -o path leads to, or, without -o, directly in the current folder (not beside the input). Inputs with different file names have different outputs; so a batch of markable inputs with different file names, none of which is the output of another, is completed, and processes with folders of their own that hold none of the others' inputs do not disturb one another. With slashes in the suffix this fails: -s x/../../b can write b.ext in the folder above the one given with -o.",
  "every tree, every batch, every suffix without a slash, every output path, every crash point",
  "all trees, names and crash points; a test sees one directory",
  ["cli/src/main.rs:process", "cli/src/main.rs:main"])

p("The tool from its command line to the tree",
  "For every command line and every tree, the exit status is 0 exactly if the command line was understood and asks for no work (help, no files or no suffix), or the -o folder (if given) exists or can be made and every file named, in turn, is read, decoded, marked and stored in it; then the tree is as these steps leave it. It is 1 exactly if there is work and -o leads to a file; then nothing has changed. Otherwise it is 101. At whatever point a run is interrupted, the tree is well formed, nothing has disappeared, new folders are those on the way to the -o value, and (for a suffix without a slash) a changed file is the output for a file named on the command line, in the output folder. The usage text is printed exactly for an understood command line that asks for help or names no file, word for word the same whatever the program is called, and then nothing changes.",
  "every argument vector, every tree, every crash point, every program name",
  "all command lines combined with all trees and crash points; a test runs one command in one directory",
  ["cli/src/main.rs:main", "cli/src/main.rs:process", "cli/src/main.rs:print_usage"])

p("Making the output folder while other processes do",
  "Processes of the tool that are started at the same time, whose -o paths are of ordinary names with no file on the way and whose missing folders may be made, never panic in making their output folders, however the system calls of the processes interleave and whatever other programs do meanwhile, as long as no folder is removed and no file put on the way. Each process is done with it after at most three calls for each name of its path and five, and then its folder is there; only folders on the ways are made and no file is touched. A process left alone makes the same folders and ends the same way as in the property of the output folder (C95). The one way to fail is the check before the folder is made, which asks two questions: if another process makes the folder between them, the process exits with status 1 saying that the output is not a folder, although it is. This can happen only to an output folder that was missing at the start, and, among processes of the tool, only if the folder is on the way to another one's output folder.",
  "every number of processes, every interleaving of their system calls, every tree, every output path of ordinary names, every other change in between",
  "all interleavings and all trees; a test observes one schedule",
  ["cli/src/main.rs:process"])

p("Several processes on one tree, output folders included",
  "Any number of processes of the tool run at the same time on one tree of folders and files, each making its output folder itself. The inputs are files, the -o paths are of ordinary names with no file on the way and may be made, the suffixes have no slash, and no output of one process is an output or an input of another one or on the way to its output folder; the output folders themselves may be shared. Then, however the steps are interleaved and whichever processes are killed: the tree stays a tree, no folder disappears, new folders are on the ways to output folders, and only outputs change; at every moment the outputs of a process are as after a first part of what it does alone; when it is done it has ended the same way as alone, and its outputs are the same. A process is done after a bounded number of its own steps, unless it gives up with status 1 in the race for a missing output folder (C98), which cannot happen if the folder was there at the start or is not on the way to another one's, and then nothing of its files has changed. When all are done, the tree does not depend on the schedule.",
  "every number of processes, every schedule, every point at which processes are killed, every tree, batch, suffix and output path meeting the conditions, every codec",
  "all interleavings and all kill points on all trees; a test observes one schedule",
  ["cli/src/main.rs:process", "cli/src/main.rs:main"])

p("Processes that write the same output",
  "Any number of processes of the tool run at the same time, and some of them have outputs in common; each has the file open for itself and writes at its own position. Whatever they do, however their system calls interleave and whichever are killed: a file is as it was at the start, or each of its bytes is zero or one that a process, having read an input with this output, means to write at this place. If all inputs can be marked, none of them is an output, and inputs with the same output mark to the same bytes (the same command started several times, for example), then no process fails, an output is at every moment as before or no longer than the right bytes and right in every byte that is not zero, and once one process that writes it has ended and the others that began have ended, it is right; so a command started any number of times leaves the files it leaves alone, and starting it again makes good whatever killed processes left. A process that is scheduled again and again ends, so with finitely many of them and none killed the files settle there. Processes that share no output do, system call by system call, what C93 says. Without these conditions it fails: if the bytes differ, all can end without an error and the file be the beginning of one output with the end of another; if one of them is killed, another one can end without an error and the file have zeros in the place of bytes.",
  "every number of processes, every schedule of their system calls, every point at which processes are killed, every set of files, every batch, every encoder that writes its file from the beginning to the end",
  "all interleavings and all kill points; a test observes one schedule",
  ["cli/src/main.rs:process", "cli/src/main.rs:main"])

p("A tree with symbolic links",
  "On a tree of folders and files that also has symbolic links, with the output folder already there: a path is found exactly if it leads somewhere, each link on the way (the last part included) replaced by its text, with at most 40 links followed; without links everything is as in the properties of the plain tree (C95, C96). However the command ends or is killed, the folders, files and links stay a tree, no link is changed, and each changed file is where an output path leads. If the -o path leads to a folder, through links or not, an output whose name is not that of a link is in that folder, so if no output's name is that of a link nothing outside the folder -o leads to is changed, and a batch with different names whose inputs can be marked ends without an error, each output in that folder holding the marked picture, every other file (the inputs, if they are elsewhere) as before. If -o leads to a file the exit status is 1 and nothing is changed. A link to itself is an error as an input or as the output folder, and nothing is changed. But an output whose name is that of a link goes where the link leads: the file there, which may be the input itself or any file of another folder, is overwritten, the command ends without an error, and there is no file with the output's name.",
  "every tree with links, every batch, suffix and -o path, every crash point, every codec",
  "all trees and links combined with all inputs and crash points; a test runs one command in one directory",
  ["cli/src/main.rs:process"])

p("Making the output folder through symbolic links",
  "On a tree with symbolic links, the command makes the output folder if it is missing. Making it only adds folders, each in a folder that is there already and where nothing was, no link either; each new folder is where a first part of the -o path leads, links followed, and if there is no error the whole path then leads to a folder. If a first part of the path leads to a folder, through links or not, and the next name is not there, exactly the folders of the remaining names are made inside it, one in the other; if the path leads to a folder already nothing is made; if a link on the way or at the end leads to no folder (a dangling link, a link to itself or to a file), making it is an error and nothing is made; after an attempt killed when it had made some of the folders, making the folder again makes exactly the remaining ones; without links folders are made as in C95. If the folder cannot be made no file is changed and the command is an error; if it can, the run goes on as on the tree with the folder (C101): a batch with different names whose inputs can be marked ends without an error, each output in the folder the path leads to, and every other file is as before. However the command ends or is killed, after any number of the folders or of the changes of files, the folders, files and links are a tree, no link is changed and no folder removed, and each changed file is where an output path leads.",
  "every tree with links, every -o path, every batch and suffix, every crash point, every codec",
  "all trees and links combined with all paths and crash points; a test makes one folder in one directory",
  ["cli/src/main.rs:process"])

p("Files with several names",
  "On a tree where a file can have several names (hard links) besides symbolic links: at whatever point the command ends or is killed, a name reads otherwise than before only if its file is the one an output path leads to. If none of the outputs is there before, a batch with different names whose inputs can be marked ends without an error, each output reads as the marked picture, and every name that was there reads as before. In general, if the outputs are different files and none is the file of an input, all names of an output's file read as the marked picture and all other names as before. So an output that is there already and has another name, a backup made with hard links say, takes the backup along: both read as the new picture; and an output whose name is another name of its input replaces the input; both without an error. If every file has one name everything is as in C101.",
  "every tree with symbolic and hard links, every batch, suffix and -o path, every crash point, every codec",
  "all trees and all ways of sharing files combined with all inputs and crash points; a test runs one command in one directory",
  ["cli/src/main.rs:process"])

p("From the command line to a tree with symbolic links",
  "On a tree with symbolic links, whatever words the command is started with: its exit status is 0 exactly if the words were understood and asked for no work (help, no files, no suffix), or the -o folder, if given, can be made or is there, links followed, and every input in turn is read, decoded, marked and stored; it is 1 exactly if there is work and -o leads, through links or not, to a file, and then nothing has changed; otherwise it is 101. The usage text is printed exactly if help is asked for or no file is named, and then nothing changes. After a successful run the folders, files and links are exactly as the inputs, completed one after the other, leave them. At whatever point the command ends or is killed, the tree is well formed, only folders where nothing was are new and only for the value of -o, no link has changed, and each changed file is where the path of an output, for a file named, leads: for a suffix without a slash, directly in the output folder, or where a link with the output's name leads. Without links all this is what the command does on a plain tree.",
  "every command line, every tree with links, every crash point, every codec",
  "all command lines and all trees combined with all crash points; a test starts one command in one directory",
  ["cli/src/main.rs:main", "cli/src/main.rs:process", "cli/src/main.rs:print_usage"])

p("Making the output folder where files have several names",
  "On a tree with symbolic links where files can have several names, the command makes the output folder if it is missing, as it does where each file has one name. At whatever point it ends or is killed: only folders where nothing was are new, and a name reads otherwise than before only if its file is the one an output path leads to. If the folder cannot be made no file changes and the command fails. If it can, and none of the outputs of a batch is there before (as when the folder is new), no file that was there changes under any of its names, and every output holds its picture.",
  "every tree with symbolic and hard links, every batch, suffix and -o path, every crash point, every codec",
  "all trees and all ways of sharing files combined with all paths and crash points; a test runs one command in one directory",
  ["cli/src/main.rs:process"])

p("Running again after a crash, through symbolic links",
  "On a tree with symbolic links, let the command with a suffix and a -o path be started any number of times and be killed each time at any point: after it has made some of the folders of the output folder, or after some of its changes of files. If the output folder can be made and no output path leads where an input path leads, the next run that is not killed makes exactly the folders that are missing, makes the same changes of files and ends in the same way as if there had been no attempts before, and leaves exactly the same tree: the same folders, files and links.",
  "every tree with links, every batch, suffix and -o path, every list of crash points, every codec",
  "all histories of crashes, while folders are made or later, on all trees; a test kills one run at one point",
  ["cli/src/main.rs:process"])

if __name__ == "__main__":
    with open("/verif/properties.jsonl", "w") as f:
        for x in P: f.write(json.dumps(x, ensure_ascii=False)+"\n")
    print(len(P))
