{"id": "C01", "title": "Dequantization undoes any noise of at most one step (real arithmetic)", "statement": "With f64 arithmetic idealised as exact real arithmetic: let (q, p) = three_bit_quantization(f, step). For every noisy vector g of the same length with |g_i - f_i| <= step for every i, three_bit_dequantization(g, p, step) returns exactly q.", "quantifier": "every step > 0, every feature vector of every length (of magnitude at most 2^61 steps, so that every cell number fits in an i64), every noise vector bounded by one step in each coordinate, including noise exactly +-step and values exactly on cell boundaries", "why_tests_cant": "the repository tests draw 14*1023 pseudo-random values; the failure-prone cases (boundaries of cells and half cells, noise exactly one step, negative cells) have measure zero", "anchors": ["lib/sia/rust/three-bit-quantization/src/lib.rs:three_bit_quantization", "lib/sia/rust/three-bit-quantization/src/lib.rs:three_bit_dequantization"]}
{"id": "C02", "title": "Dequantization in IEEE double arithmetic: exact up to thin boundary zones", "statement": "In IEEE binary64 arithmetic three_bit_dequantization(g, p, step) still returns exactly the original quantized vector whenever the noise is at most one step and every clean and noisy value is, measured in steps, at least 2^-53*(3K+12) away from every multiple of 1/2, where K bounds the absolute cell numbers. Without the margin the claim of C01 is false for the f64 code: with step = 1 and clean feature 1.0 the noisy value 1 - 2^-53 is restored to cell 2 instead of cell 1.", "quantifier": "every finite step between 2^-100 and 2^100, every feature vector whose cells are below K <= 2^39 in absolute value, every noise vector inside the stated bounds; plus an existential counterexample", "why_tests_cant": "the violating set is a handful of doubles next to each boundary; random tests practically never hit it", "anchors": ["lib/sia/rust/three-bit-quantization/src/lib.rs:three_bit_quantization", "lib/sia/rust/three-bit-quantization/src/lib.rs:three_bit_dequantization"]}
{"id": "C03", "title": "One step is the exact noise tolerance", "statement": "For no eps > 0 does dequantization tolerate noise up to (1+eps)*step: for every step > 0 and every eps > 0 there are a feature and a noise with |noise| <= (1+eps)*step that are restored to a wrong cell, in both directions (up and down).", "quantifier": "every step > 0 and every eps > 0, both noise signs", "why_tests_cant": "sharpness of a bound is a statement about all eps", "anchors": ["lib/sia/rust/three-bit-quantization/src/lib.rs:three_bit_dequantization"]}
{"id": "C04", "title": "Quantization contract", "statement": "three_bit_quantization returns one integer per feature, namely the cell index q with q*step <= f < (q+1)*step, and exactly three bits per feature: the two bits of (q-1) mod 4, most significant first, then the bit that tells whether f lies in the upper half of its cell.", "quantifier": "every step > 0 and every feature vector of magnitude below 2^62 steps, so that every cell number fits in an i64 (real arithmetic)", "why_tests_cant": "holds for all reals and lengths; tests give four literals", "anchors": ["lib/sia/rust/three-bit-quantization/src/lib.rs:quantize", "lib/sia/rust/three-bit-quantization/src/lib.rs:three_bit_quantization", "lib/sia/rust/three-bit-quantization/src/lib.rs:mod_four", "lib/sia/rust/three-bit-quantization/src/lib.rs:two_bits_from_integer"]}
{"id": "C05", "title": "How many features a stored perturbation vector authenticates, and when dequantization aborts", "statement": "three_bit_dequantization(g, p, step) aborts exactly when p's length is not a multiple of 3 or p describes more features than g contains; otherwise it returns len(p)/3 integers and ignores the features of g beyond that. This holds if no feature falls into the lowest i64 cell, -2^63 (one that is at least 2^63 steps below zero does); if one does, quantization and dequantization both abort.", "quantifier": "every feature vector, every bit vector of every length, every step > 0", "why_tests_cant": "ranges over all pairs of lengths; tests only use matching lengths", "anchors": ["lib/sia/rust/three-bit-quantization/src/lib.rs:three_bit_dequantization"]}
{"id": "C06", "title": "Perturbation vector survives the byte format", "statement": "perturbation_vector_from_bytes(perturbation_vector_as_bytes(v), len(v)) == v, the byte form has exactly ceil(len/8) bytes, and whatever the unused bits of the last byte (or further bytes) contain, they do not change the result.", "quantifier": "every bit vector of every length and every content of the unused bits", "why_tests_cant": "all lengths modulo 8 and all contents; tests give two literals", "anchors": ["lib/sia/rust/three-bit-quantization/src/lib.rs:perturbation_vector_as_bytes", "lib/sia/rust/three-bit-quantization/src/lib.rs:perturbation_vector_from_bytes"]}
{"id": "C07", "title": "Watermark record round-trip", "statement": "For every watermark whose perturbation vector has at most 255 bits, signature at most 255 bytes and text at most 255 UTF-8 bytes, serialize succeeds and deserialize of the result, followed by any trailing bytes, returns the identical watermark.", "quantifier": "every watermark within the limits (all texts, including multi-byte characters), every trailing byte string", "why_tests_cant": "unbounded data; one literal is tested", "anchors": ["lib/sia/rust/watermarking/src/watermark.rs:Watermark::serialize", "lib/sia/rust/watermarking/src/watermark.rs:deserialize"]}
{"id": "C08", "title": "Watermark record limits are enforced, not truncated", "statement": "serialize aborts exactly when the perturbation vector has more than 255 bits or the signature or the UTF-8 text more than 255 bytes; when it succeeds the length is exactly 3 + ceil(bits/8) + signature + text, and two different watermarks never serialize to the same bytes.", "quantifier": "every watermark of every size", "why_tests_cant": "a silent truncation would only show for particular sizes", "anchors": ["lib/sia/rust/watermarking/src/watermark.rs:Watermark::serialize"]}
{"id": "C09", "title": "Watermark parser on arbitrary bytes", "statement": "On arbitrary bytes deserialize either aborts or returns a watermark; it succeeds exactly when the input has at least 3 bytes, covers the three sections announced by its header, and the text section is valid UTF-8. Whatever it returns can be serialized again and re-parses to the same watermark.", "quantifier": "every byte string", "why_tests_cant": "adversarial inputs: all byte strings", "anchors": ["lib/sia/rust/watermarking/src/watermark.rs:deserialize"]}
{"id": "C10", "title": "Length-prefixed payload record", "statement": "The payload record of 1..=65535 bytes round-trips (trailing bytes ignored); serialization aborts exactly for more than 65535 bytes; the empty payload serializes but its record can never be read back on its own (deserialize aborts).", "quantifier": "every payload of every length, every trailing byte string", "why_tests_cant": "size limits and the empty case are not tested", "anchors": ["lib/sia/rust/embedding/src/io/data.rs:Data::serialize", "lib/sia/rust/embedding/src/io/data.rs:deserialize"]}
{"id": "C11", "title": "Channel coding round-trip for supported capacities", "statement": "For a capacity of 16, 32, 64, 128, 256, 512 bytes or at least 1024 bytes, and every input of at most 65535 bytes, decode(encode(input, capacity), capacity) returns input, provided the LDPC library decodes its own clean codewords.", "quantifier": "every input up to 65535 bytes, every supported capacity, every LDPC implementation meeting the clean-codeword contract", "why_tests_cant": "tests cover fourteen literals", "anchors": ["lib/sia/rust/encoding/src/lib.rs:encode", "lib/sia/rust/encoding/src/lib.rs:decode", "lib/sia/rust/encoding/src/lib.rs:get_code_by_codeword_length"]}
{"id": "C12", "title": "Channel decoding corrects block errors and ignores trailing blocks", "statement": "If every received block that carries data is decodable by the LDPC library to the block that was sent, then decode returns the original input, no matter what full-size blocks follow; the result depends only on the data-carrying blocks.", "quantifier": "every input, every corruption pattern that is decodable block by block, every number and content of trailing blocks", "why_tests_cant": "the set of error patterns is exponential", "anchors": ["lib/sia/rust/encoding/src/lib.rs:decode"]}
{"id": "C13", "title": "Channel coding silently loses data outside its domain", "statement": "For every other capacity (for example 17 or 300 bytes) decode(encode(x)) returns x with two extra header bytes in front instead of x; and for every input of at least 65536 bytes with a supported capacity the decoded result is never the input. The unused table of codes for decoding names the same code wherever the coding applies one, and one for every other length from 16 bytes on.", "quantifier": "every unsupported capacity with every input; every supported capacity with every input longer than 65535 bytes", "why_tests_cant": "needs all capacities; the tests never use an unsupported one", "anchors": ["lib/sia/rust/encoding/src/lib.rs:encode", "lib/sia/rust/encoding/src/lib.rs:decode", "lib/sia/rust/encoding/src/lib.rs:get_code_by_codeword_length"]}
{"id": "C14", "title": "Encoded size", "statement": "With a supported capacity the encoded output of an input of n bytes has exactly ceil((n+2)/(k/8))*(n_code/8) bytes; decode aborts on every input whose length is not a multiple of the code's block size and on the empty input.", "quantifier": "every input length, every capacity, every received byte string", "why_tests_cant": "all lengths", "anchors": ["lib/sia/rust/encoding/src/lib.rs:encode", "lib/sia/rust/encoding/src/lib.rs:decode"]}
{"id": "C15", "title": "Writing then reading a square coefficient domain", "statement": "For every square coefficient domain, every depth > 0 and every byte string that fits the capacity, reading after writing returns exactly the written bytes followed by what the domain read as before from that position on. True in exact arithmetic and in IEEE double arithmetic for coefficients up to 2^40 depths.", "quantifier": "every square size, every coefficient values, every depth > 0, every byte string up to capacity", "why_tests_cant": "all sizes and all real coefficient values", "anchors": ["lib/sia/rust/embedding/src/io/mod.rs:write", "lib/sia/rust/embedding/src/io/mod.rs:read", "lib/sia/rust/embedding/src/io/steganography.rs:write_bit", "lib/sia/rust/embedding/src/io/steganography.rs:read_bit"]}
{"id": "C16", "title": "Non-square coefficient domains do not work", "statement": "If the domain has more rows than columns, writing any byte string with more bits than columns aborts, and reading a domain of at least one byte with rows > columns >= 1 aborts. If it has fewer rows than columns, distinct bit positions share a cell, so there are byte strings within capacity that are not read back.", "quantifier": "every non-square domain size", "why_tests_cant": "the tests only use square domains", "anchors": ["lib/sia/rust/embedding/src/io/steganography.rs:get_column_and_row", "lib/sia/rust/embedding/src/io/steganography.rs:write", "lib/sia/rust/embedding/src/io/steganography.rs:read"]}
{"id": "C17", "title": "Coefficient noise margin is a quarter of the depth", "statement": "After a bit is written with depth d > 0, any additive change of the coefficient by less than d/4 leaves the read bit unchanged; for every larger bound there is a change that flips it.", "quantifier": "every coefficient, every depth > 0, every noise below d/4; sharpness for every eps > 0", "why_tests_cant": "ranges over real noise", "anchors": ["lib/sia/rust/embedding/src/io/steganography.rs:write_bit", "lib/sia/rust/embedding/src/io/steganography.rs:read_bit"]}
{"id": "C18", "title": "Writing changes coefficients by at most 3/4 depth and touches nothing else", "statement": "Writing a byte string into a square domain changes the coefficients in the first 8*len cells in row-major order by at most 0.75*depth each and leaves every other coefficient bit-identical; if the data exceeds the capacity the write aborts.", "quantifier": "every square domain, every byte string, every depth > 0", "why_tests_cant": "all cells, all values", "anchors": ["lib/sia/rust/embedding/src/io/steganography.rs:write", "lib/sia/rust/embedding/src/io/steganography.rs:write_bit", "lib/sia/rust/embedding/src/io/steganography.rs:get_capacity"]}
{"id": "C19", "title": "Wavelet transform: perfect reconstruction", "statement": "For every matrix whose dimensions are divisible by 2^L (1 <= L <= 31), the backward transform of the forward transform is the original matrix, and vice versa, in exact arithmetic; in IEEE double arithmetic the backward transform differs from the exact inverse by a bound proportional to the unit roundoff.", "quantifier": "every matrix size divisible by 2^L, every L from 1 to 31, all entries", "why_tests_cant": "linear-algebra identity over all matrices, sizes and levels", "anchors": ["lib/sia/rust/embedding/src/haar/mod.rs:dwt_2d", "lib/sia/rust/embedding/src/haar/mod.rs:dwt_1d"]}
{"id": "C20", "title": "Wavelet transform preserves energy", "statement": "In exact arithmetic the sum of squares of all coefficients after the forward transform (any number of levels) equals the sum of squares of the input.", "quantifier": "every matrix of size divisible by 2^L, every L from 1 to 31", "why_tests_cant": "identity over all matrices", "anchors": ["lib/sia/rust/embedding/src/haar/mod.rs:dwt_2d"]}
{"id": "C21", "title": "The embedding domain is the scaled block average", "statement": "In exact arithmetic entry (i,j) of the L-level low-low corner is the sum of the 2^L x 2^L pixel block at (i,j) divided by 2^L; changing one low-low coefficient by t changes exactly the pixels of its block, each by t/2^L.", "quantifier": "every matrix size divisible by 2^L, every L from 1 to 31, every coefficient and every t", "why_tests_cant": "identity over all sizes and levels", "anchors": ["lib/sia/rust/embedding/src/haar/mod.rs:dwt_2d", "lib/sia/rust/embedding/src/lib.rs:embed"]}
{"id": "C22", "title": "Embed then extract returns the payload", "statement": "For a square image whose side is a multiple of 2^L, with supported and block-aligned capacity, a payload of 1..=65533 bytes whose encoding fits, embedding depth d with d > 2^(L+1) (plus a tiny slack in double arithmetic), and every pixel at distance at least 0.75*d/2^L from 0 and 255: extract(embed(image, payload, d, L), d, L) == payload. Holds in exact arithmetic and in IEEE double arithmetic.", "quantifier": "every such image (all sizes, all pixel contents), every payload, every depth and level in range, every LDPC implementation decoding clean codewords", "why_tests_cant": "one 32x32 image with one payload is tested", "anchors": ["lib/sia/rust/embedding/src/lib.rs:embed", "lib/sia/rust/embedding/src/lib.rs:extract"]}
{"id": "C23", "title": "Embedding distortion bound", "statement": "Every pixel of embed's output differs from the source pixel by at most 0.75*depth/2^L + 1/2 (exact arithmetic; plus a tiny slack in double arithmetic, for depths of at least 1), for every image including saturated ones, and the dimensions are unchanged.", "quantifier": "every square image, every payload that embed accepts, every depth > 0", "why_tests_cant": "worst-case bound over all images and payloads", "anchors": ["lib/sia/rust/embedding/src/lib.rs:embed"]}
{"id": "C24", "title": "Extraction tolerates later pixel noise", "statement": "Under the conditions of the embed/extract round-trip, the payload is still extracted exactly from every image that differs from the watermarked one by at most t per pixel, whenever d > 2^(L+1)*(2t+1).", "quantifier": "every image within t of the watermarked image in every pixel", "why_tests_cant": "the neighbourhood has (2t+1)^(pixels) members", "anchors": ["lib/sia/rust/embedding/src/lib.rs:extract", "lib/sia/rust/embedding/src/lib.rs:embed"]}
{"id": "C25", "title": "Saturated images lose data", "statement": "Without the distance condition on pixels the round-trip fails. In exact arithmetic, for every depth d > 0 other than 2^(L+1), marking the all-black image leaves no trace of the payload: what is read back is 0xFF bytes whatever was embedded, so of any two different payloads that embed accepts at least one is not returned by extract.", "quantifier": "every side length, level count and depth > 0 except d = 2^(L+1), every pair of payloads, whatever the LDPC library does", "why_tests_cant": "a universally quantified failure", "anchors": ["lib/sia/rust/embedding/src/lib.rs:embed", "lib/sia/rust/embedding/src/lib.rs:extract"]}
{"id": "C26", "title": "Too little capacity is reported, never truncated", "statement": "embed aborts whenever the encoded payload does not fit the low-low domain, the domain has less than 9 bytes, or the payload exceeds 65535 bytes; if embed succeeds the payload did fit.", "quantifier": "every image size, payload and level", "why_tests_cant": "all size combinations", "anchors": ["lib/sia/rust/embedding/src/lib.rs:embed", "lib/sia/rust/embedding/src/lib.rs:get_domain_capacity", "lib/sia/rust/embedding/src/io/steganography.rs:write"]}
{"id": "C27", "title": "Accepted payloads that can never be extracted", "statement": "embed accepts the empty payload and payloads of 65534 and 65535 bytes (given a large enough image), but extract can never return them: the header arithmetic makes extraction abort. The same holds for every capacity that is not supported by the channel code, whatever the payload.", "quantifier": "every image, every depth, every payload of these lengths / every unsupported capacity", "why_tests_cant": "needs gigantic images or unusual sizes; universally quantified", "anchors": ["lib/sia/rust/embedding/src/lib.rs:embed", "lib/sia/rust/embedding/src/lib.rs:extract", "lib/sia/rust/encoding/src/lib.rs:encode", "lib/sia/rust/embedding/src/io/data.rs:deserialize"]}
{"id": "C28", "title": "Integer byte conversions", "statement": "vec_u16_from_bytes/vec_i64_from_bytes invert vec_u16_to_bytes/vec_i64_to_bytes for every vector; the byte form has 2 (8) bytes per integer, is injective, and parsing aborts exactly on lengths that are not multiples of 2 (8).", "quantifier": "every vector of u16 / i64, every byte string", "why_tests_cant": "all values and lengths", "anchors": ["lib/sia/rust/utils/src/bytes.rs:vec_u16_to_bytes", "lib/sia/rust/utils/src/bytes.rs:vec_u16_from_bytes", "lib/sia/rust/utils/src/bytes.rs:vec_i64_to_bytes", "lib/sia/rust/utils/src/bytes.rs:vec_i64_from_bytes"]}
{"id": "C29", "title": "Hex round-trip and rejection", "statement": "decode_hex(encode_hex(b)) == Ok(b) for every byte string and encode_hex has length 2*len and only lower-case hex digits; decode_hex never accepts an odd-length ASCII string (it aborts unless an earlier pair already gave Err); an even-length ASCII string is accepted exactly if each pair is two hex digits of either case or '+' followed by a hex digit (so decode_hex(\"+f\") succeeds).", "quantifier": "every byte string, every ASCII string", "why_tests_cant": "all strings; the '+' quirk is never tested", "anchors": ["lib/sia/rust/utils/src/format.rs:decode_hex", "lib/sia/rust/utils/src/format.rs:encode_hex"]}
{"id": "C30", "title": "Number and identity of features", "statement": "calculate_features for Zernike moments returns exactly features_amount values for every features_amount >= 1, for the orders 2n-1 and the indices 1,3,...,2n-1; features_amount = 0 aborts; the other feature types return no features. An image with at least one row and more columns than rows (second dimension greater than the first) makes the computation abort; one with at most as many columns as rows never does, down to images of one pixel or none.", "quantifier": "every features_amount and every image size", "why_tests_cant": "all amounts and sizes; tests use 3 on 8x8", "anchors": ["lib/sia/rust/zernike/src/lib.rs:calculate_features", "lib/sia/rust/zernike/src/lib.rs:get_order_by_features_amount", "lib/sia/rust/image-features/src/lib.rs:calculate_features", "lib/sia/rust/zernike/src/calc.rs:calculate_zernike_image_moment"]}
{"id": "C31", "title": "Features are invariant under the symmetries of the square", "statement": "In exact arithmetic all Zernike features of a square image are unchanged when the image is rotated by 90, 180 or 270 degrees, transposed or mirrored.", "quantifier": "every square image of side >= 2, every features_amount", "why_tests_cant": "identity over all images", "anchors": ["lib/sia/rust/zernike/src/calc.rs:calculate_zernike_image_moment", "lib/sia/rust/zernike/src/calc.rs:get_zernike_matrix", "lib/sia/rust/zernike/src/lib.rs:calculate_features"]}
{"id": "C32", "title": "Centrally symmetric images have zero features", "statement": "In exact arithmetic every Zernike feature (all orders used are odd) of an image that equals its own 180 degree rotation is exactly 0, so all such images, for example all constant images, have the same quantized features.", "quantifier": "every centrally symmetric square image of side >= 2, every features_amount", "why_tests_cant": "tested for one constant image", "anchors": ["lib/sia/rust/zernike/src/lib.rs:calculate_features", "lib/sia/rust/zernike/src/calc.rs:calculate_zernike_image_moment"]}
{"id": "C33", "title": "Zernike radial polynomials", "statement": "The radial function equals the standard Zernike radial polynomial: all its coefficients are integers, it has the parity of the order, and its value at radius 1 is 1, for all index <= order of equal parity.", "quantifier": "every order and every index <= order of equal parity", "why_tests_cant": "identity over all orders; tests check three radii of one (odd) pair", "anchors": ["lib/sia/rust/zernike/src/calc.rs:radial", "lib/sia/rust/zernike/src/calc.rs:f", "lib/sia/rust/utils/src/math.rs:factorial"]}
{"id": "C34", "title": "All pixels are inside the unit disc", "statement": "to_polar maps every pixel position (1..=n, 1..=n) of an n x n grid, n >= 2, into the closed unit disc, and the four corners onto its boundary.", "quantifier": "every n >= 2 and every pixel", "why_tests_cant": "all sizes", "anchors": ["lib/sia/rust/zernike/src/calc.rs:to_polar", "lib/sia/rust/zernike/src/calc.rs:get_zernike_matrix"]}
{"id": "C35", "title": "factorial", "statement": "factorial(n) is n! for every natural number n, and the recursion never terminates for a negative integer.", "quantifier": "every natural number, every negative integer", "why_tests_cant": "induction over all naturals; non-termination cannot be tested", "anchors": ["lib/sia/rust/utils/src/math.rs:factorial"]}
{"id": "C36", "title": "watermark keeps the image's shape, colour class and alpha", "statement": "watermark returns an image of the same width and height, of the 8-bit colour type with the same has_color/has_alpha, whose alpha channel equals the source's alpha exactly; grey images yield exactly the watermarked single channel (no luma rounding loss).", "quantifier": "every image of every colour type on which watermark succeeds", "why_tests_cant": "all images and colour types", "anchors": ["lib/sia/rust/watermarking/src/lib.rs:watermark"]}
{"id": "C37", "title": "Colour channels are processed independently", "statement": "Each output colour channel is watermark_channel applied to the corresponding source channel: if two images agree on a channel (and have the same colour class and size) and both runs succeed then the outputs agree on that channel; watermark fails exactly if a processed channel fails.", "quantifier": "every pair of images", "why_tests_cant": "relational property over pairs of inputs", "anchors": ["lib/sia/rust/watermarking/src/lib.rs:watermark", "lib/sia/rust/watermarking/src/process.rs:watermark_channel"]}
{"id": "C38", "title": "A watermarked channel authenticates", "statement": "authenticate_channel(watermark_channel(c)) is true for every square channel satisfying the embed/extract conditions with 1..=85 features, provided each feature of the (equalized) watermarked channel differs from the source's by at most one quantization step and the signature library verifies its own signatures.", "quantifier": "every channel, step, depth and features_amount satisfying the stated conditions (exact arithmetic; double arithmetic with margins)", "why_tests_cant": "one image is tested", "anchors": ["lib/sia/rust/watermarking/src/process.rs:watermark_channel", "lib/sia/rust/watermarking/src/process.rs:authenticate_channel"]}
{"id": "C39", "title": "Authentication only accepts signed feature cells", "statement": "authenticate_channel returns true exactly if a record can be extracted and parsed, the feature cells restored with its perturbation bits exist, and the record's signature verifies for them under the built-in public key. For a marked channel (also with noise) this means: if it is accepted then its restored feature cells are the source's signed ones, or the very signature that was made for the source's cells verifies for another message as well.", "quantifier": "every channel; every noisy version of a marked channel within the noise bound", "why_tests_cant": "all images and all attacks that keep the record", "anchors": ["lib/sia/rust/watermarking/src/process.rs:authenticate_channel", "lib/sia/rust/signature/src/lib.rs:verify"]}
{"id": "C40", "title": "Authentication covers only the features stored in the record", "statement": "The number of checked features is dictated by the embedded record, not by the verifier's features_amount: a record with fewer features authenticates regardless of the remaining features, including a record with no perturbation bits at all, for which no image feature is checked.", "quantifier": "every channel carrying such a record", "why_tests_cant": "security-relevant universal statement", "anchors": ["lib/sia/rust/watermarking/src/process.rs:authenticate_channel", "lib/sia/rust/three-bit-quantization/src/lib.rs:three_bit_dequantization"]}
{"id": "C41", "title": "Which images watermark_channel rejects", "statement": "watermark_channel aborts for features_amount 0 or greater than 85, for every image without pixels, for every image whose height exceeds its width, for every image wider than high unless 8*encoded length <= height/8, and for every square image whose 1/8-scale domain cannot hold the 88-or-more-byte record; the smallest accepted square side is stated exactly.", "quantifier": "every image size, every features_amount", "why_tests_cant": "all sizes", "anchors": ["lib/sia/rust/watermarking/src/process.rs:watermark_channel", "lib/sia/rust/embedding/src/lib.rs:embed"]}
{"id": "C42", "title": "Pseudo-random generator stays in range", "statement": "In IEEE double arithmetic generate_unit always returns a number in [0,1) and generate(a,b) one in [a,b] for finite doubles a <= b whose difference does not overflow ([a,b) in exact arithmetic; in doubles b itself can be returned); each call increments the seed by one, the i-th number after seeding with s is the first one after seeding with s+i, and only the seed usize::MAX aborts.", "quantifier": "every seed, every interval, every call sequence", "why_tests_cant": "100 values of one seed are tested", "anchors": ["lib/sia/rust/utils/src/pseudo_random.rs:PseudoRandom"]}
{"id": "C43", "title": "Batch command line processing", "statement": "Processing a list of files writes, for each input, the file <stem>-<suffix>.<ext> in the output folder with the watermarked content of the input as it was before the run, provided no output path equals an input path and outputs are pairwise distinct; no other file changes; processing stops at the first failing input leaving the outputs of earlier inputs complete; without a suffix nothing is written. Without the provisos it is false: an output may overwrite a later input or an earlier output.", "quantifier": "every file system content, every list of inputs", "why_tests_cant": "all histories of a stateful batch", "anchors": ["lib/sia/rust/cli/src/main.rs:process"]}
{"id": "C44", "title": "Elapsed time display", "statement": "The displayed time is always a truncation: displayed value <= elapsed < displayed value + one displayed unit, with exactly one of the five formats chosen.", "quantifier": "every duration", "why_tests_cant": "all durations", "anchors": ["lib/sia/rust/cli/src/timer.rs:Elapsed"]}
{"id": "C45", "title": "Nested vectors to matrix", "statement": "vector_2d_as_nd_array(v)[i][j] == v[i][j] for every rectangular nested vector; an empty vector aborts; a ragged vector aborts unless its total size happens to be rows * (length of the first row).", "quantifier": "every nested vector", "why_tests_cant": "all shapes", "anchors": ["lib/sia/rust/utils/src/lib.rs:vector_2d_as_nd_array"]}
{"id": "C46", "title": "Extraction from arbitrary images is partial", "statement": "extract (and therefore authenticate_channel) may abort instead of reporting failure: for every unsupported capacity every all-black (unmarked) square image makes extract abort, at every depth > 0.", "quantifier": "every all-black square image with unsupported capacity, every depth", "why_tests_cant": "universally quantified failure", "anchors": ["lib/sia/rust/embedding/src/lib.rs:extract", "lib/sia/rust/watermarking/src/process.rs:authenticate_channel"]}
{"id": "C47", "title": "Extraction corrects damaged blocks", "statement": "If the LDPC library corrects b flipped bits per block then, under the conditions of the embed/extract round-trip, the payload is extracted exactly from every image in which each data-carrying code block has at most b cells containing a pixel changed by more than t; those pixels, and all pixels that carry no data, may be changed arbitrarily.", "quantifier": "every image, payload, depth, noise bound t with d > 2^(L+1)*(2t+1), every damaged image of the same size with at most b damaged cells per code block; exact and IEEE double arithmetic", "why_tests_cant": "ranges over all damage patterns; tests use the undamaged image", "anchors": ["lib/sia/rust/embedding/src/lib.rs:extract", "lib/sia/rust/encoding/src/lib.rs:decode"]}
{"id": "C48", "title": "Sizes whose watermark can never be read", "statement": "If the capacity of the embedding domain of a square image is supported by a code but is not a multiple of that code's block size (for example every capacity above 1024 bytes that is not a multiple of 1024, as for 1000 x 1000 pixels at three levels), extract aborts on every image of that size, marked or not, while embed accepts every payload of at most 508 bytes for it.", "quantifier": "every such size, every image, every depth, every LDPC library", "why_tests_cant": "universally quantified failure; the tests use 512 x 512 and multiples of 1024 only", "anchors": ["lib/sia/rust/embedding/src/lib.rs:embed", "lib/sia/rust/embedding/src/lib.rs:extract", "lib/sia/rust/encoding/src/lib.rs:decode"]}
{"id": "C49", "title": "Features are bounded and change slowly", "statement": "Each of the a features of a square 8-bit image lies between 0 and (2a/pi) times the mean pixel value; the features of two images of equal size differ by at most (2a/pi) times their mean absolute pixel difference (because the radial Zernike polynomials are bounded by 1 on [0,1]). Hence a marked channel authenticates whenever its equalized pixels differ from the source's by at most pi*step/(2a) on average.", "quantifier": "every square image, every pair of images, every number of features >= 1 (exact arithmetic)", "why_tests_cant": "analytic bound over all images", "anchors": ["lib/sia/rust/image-features/src/lib.rs:calculate_features", "lib/sia/rust/zernike/src/calc.rs:moment", "lib/sia/rust/watermarking/src/process.rs:authenticate_channel"]}
{"id": "C50", "title": "Signing and verifying round-trip", "statement": "For every key pair the signature library accepts, verify(data, sign(data, k)) is true for the hex keys that generate returns; sign succeeds exactly if both texts are hex and form an acceptable pair, and verify returns the library's verdict exactly if key and signature parse; on every signature that is not 64 bytes long verify aborts instead of returning false.", "quantifier": "every message, key pair, signature, key text", "why_tests_cant": "all messages and malformed inputs", "anchors": ["lib/sia/rust/signature/src/lib.rs:sign", "lib/sia/rust/signature/src/lib.rs:verify", "lib/sia/rust/signature/src/keypair.rs:generate"]}
{"id": "C51", "title": "Which sides of square images can be read back", "statement": "At the three levels the program uses, of all accepted square sides exactly 512, the multiples of 1024 and the sides >= 1024 congruent to 8 or -8 modulo 32768 or to 16 or -16 modulo 16384 have a readable watermark; on every other accepted side marking succeeds and authentication of the marked channel, and of every noisy version within the noise bound, aborts.", "quantifier": "every side, every channel meeting the embedding conditions, every noise within the bound", "why_tests_cant": "universally quantified failure", "anchors": ["lib/sia/rust/watermarking/src/process.rs:watermark_channel", "lib/sia/rust/watermarking/src/process.rs:authenticate_channel", "lib/sia/rust/encoding/src/lib.rs:decode"]}
{"id": "C52", "title": "Non-square images never authenticate", "statement": "authenticate_channel aborts on every channel whose width and height differ, marked or not, whatever the parameters and the libraries.", "quantifier": "every non-square channel, every depth, step, features_amount and number of levels", "why_tests_cant": "universally quantified failure", "anchors": ["lib/sia/rust/watermarking/src/process.rs:authenticate_channel"]}
{"id": "C53", "title": "Brightness and contrast changes are tolerated", "statement": "Features are unchanged by every strictly increasing change of the samples (histogram equalisation undoes it). Hence authentication gives the same answer for a marked channel and for every version of it in which the samples were changed by an increasing map that moves each sample by at most the noise bound t (such as a brightness offset of at most t that does not saturate).", "quantifier": "every marked channel meeting the embedding conditions, every increasing map (equalisation depends on the order of the samples only)", "why_tests_cant": "all images and all intensity maps", "anchors": ["lib/sia/rust/watermarking/src/process.rs:authenticate_channel", "lib/sia/rust/watermarking/src/process.rs:watermark_channel"]}
{"id": "C54", "title": "Watermarking an image is a bounded change", "statement": "watermark changes no colour or grey sample of a square image by more than 3/32*depth + 1/2 (9 levels for the default depth 100) and no alpha sample at all; a channel at L levels changes by at most 3/4*depth/2^L + 1/2.", "quantifier": "every square image of every colour type, every depth > 0, step and features_amount (exact arithmetic, and IEEE double arithmetic for depths from 1 to 2^20 with a relative slack of 2^-26)", "why_tests_cant": "all images", "anchors": ["lib/sia/rust/watermarking/src/lib.rs:watermark", "lib/sia/rust/watermarking/src/process.rs:watermark_channel"]}
{"id": "C55", "title": "Whole-number arithmetic done in f64 is exact", "statement": "Wherever the code computes an integer quotient in f64 (capacity of a block of coefficients, row of a bit, cell positions, number of bytes for a number of bits), the result rounded down or up to an integer equals the exact integer quotient for all operands below 2^53.", "quantifier": "every pair of operands 0 <= a < 2^53, 0 < b < 2^53, IEEE double arithmetic", "why_tests_cant": "all operands; rounding could push a quotient across an integer", "anchors": ["lib/sia/rust/embedding/src/io/steganography.rs:get_capacity", "lib/sia/rust/embedding/src/io/steganography.rs:get_column_and_row", "lib/sia/rust/three-bit-quantization/src/lib.rs", "lib/sia/rust/zernike/src/calc.rs"]}
{"id": "C56", "title": "Approximate comparison helpers", "statement": "assert_approximately_equal passes only if both numbers are finite and their exact difference is below the double nearest to 0.0001, and passes whenever the difference is at most 0.00009; assert_approximately_equals_1d passes exactly if every element of `actual` has a counterpart in `expected` that passes: surplus elements abort, missing ones are never noticed (an empty `actual` always passes). The same holds for matrices of numbers and of complex numbers, where complex numbers and pairs pass exactly if both parts do.", "quantifier": "every pair of doubles including NaN and infinities, every pair of vectors", "why_tests_cant": "all doubles and all lengths", "anchors": ["lib/sia/rust/utils/src/lib.rs:assert_approximately_equal", "lib/sia/rust/utils/src/lib.rs:assert_approximately_equals_1d", "lib/sia/rust/utils/src/lib.rs:assert_approximately_equals_2d", "lib/sia/rust/utils/src/lib.rs:assert_approximately_equals_2d_complex"]}
{"id": "C57", "title": "Every wavelet coefficient is determined", "statement": "In dwt_2d(image, L, false) every detail coefficient of every level k < L is a signed sum of the four 2^k x 2^k blocks that make up its 2^(k+1) x 2^(k+1) block of the image, divided by 2^(k+1): left minus right in the upper right part, top minus bottom in the lower left part, both in the lower right part. With the block sums of the corner this determines the whole transform.", "quantifier": "every image with dimensions divisible by 2^L, every level, every position (exact arithmetic)", "why_tests_cant": "all images and levels", "anchors": ["lib/sia/rust/embedding/src/haar/mod.rs:dwt_2d"]}
{"id": "C58", "title": "Image bytes reach the library unchanged in the browser", "statement": "base64ToUInt8Array applied to the data URL the browser makes from a blob (and to the stripped data URL of a chosen file) returns exactly the blob's bytes if its media type is image/ followed by ASCII letters and digits, and throws for every other media type (image/svg+xml, image/x-icon, application/octet-stream, unknown); a string with a foreign character always throws.", "quantifier": "every media type and every byte sequence", "why_tests_cant": "all contents, lengths modulo 3 and media types", "anchors": ["src/Content/utils.ts:base64ToUInt8Array", "src/Content/utils.ts:fileToBase64"]}
{"id": "C59", "title": "What the browser shows for an image", "statement": "get_watermarking_process succeeds exactly if the format is recognised, the image decodes and watermark succeeds with 11 features. Its two images have the source's size and exactly width*height*4 bytes; the first holds the decoded pixels row by row as RGBA, the second the watermarked pixels with the source's alpha (255 without alpha); the canvases draw exactly these bytes. With the page's settings (depth 500) colour samples of a square image differ by at most 47 levels.", "quantifier": "every blob, every decoder, every image size and colour type, every depth and step", "why_tests_cant": "all images", "anchors": ["lib/sia/rust/web/src/lib.rs:get_watermarking_process", "lib/sia/rust/web/src/lib.rs:get_image_model", "src/Content/Content.tsx:getWatermarkingProcess", "src/Canvas/Canvas.tsx:Canvas"]}
{"id": "C60", "title": "Which image the page shows", "statement": "At every moment the page shows the pair delivered by the last load that ended successfully (of the demo image or of a chosen file), never parts of two of them; failing loads, cancelled dialogs and mere choices change nothing. If readers end in the order of the choices, the last chosen file is shown; if an earlier file's reader ends later, the page shows the earlier file; if the demo image never loads, no file can be chosen; in a development build the second demo load can replace a chosen file.", "quantifier": "every sequence of events: any number of files chosen, readers ending or failing in any order", "why_tests_cant": "all schedules of asynchronous readers", "anchors": ["src/Content/Content.tsx:Content", "src/Content/utils.ts:toDataURL", "src/Content/utils.ts:fileToBase64"]}
{"id": "C61", "title": "Extraction sees only block sums", "statement": "extract returns the same bytes, or the same abort, for any two images of the same size whose sums over the 2^levels x 2^levels blocks agree modulo 2^levels times the depth: rearranging pixels inside blocks in any way, or brightening whole blocks by s levels with s*2^levels a multiple of the depth, goes unnoticed (exact arithmetic).", "quantifier": "every pair of images, every positive depth, every number of levels, every code, every family of permutations of the blocks", "why_tests_cant": "all images and rearrangements", "anchors": ["lib/sia/rust/embedding/src/lib.rs:extract", "lib/sia/rust/embedding/src/haar/mod.rs:dwt_2d", "lib/sia/rust/embedding/src/io/steganography.rs:read"]}
{"id": "C62", "title": "Embedding the same payload again", "statement": "embed(embed(image, payload), payload) with the same depth and levels succeeds whenever the first embed did; in exact arithmetic it changes no pixel (for unsaturated images and depth above 2^(levels+1)), in double arithmetic it changes each pixel by at most one level, and none if no block's way to its two values is halfway between two integers.", "quantifier": "every square image, payload, depth and number of levels meeting the signal conditions", "why_tests_cant": "all images and payloads", "anchors": ["lib/sia/rust/embedding/src/lib.rs:embed", "lib/sia/rust/embedding/src/io/steganography.rs:write"]}
{"id": "C63", "title": "Depths that are not positive", "statement": "Whether embed succeeds does not depend on the depth. With depth 0 or NaN it turns every block that should carry a bit black and leaves all others unchanged, and extract returns the same for all images of one size; extract ignores the sign of the depth, while writing with a negative depth writes the complement of every bit, so what is read back is the complement of the payload (double arithmetic).", "quantifier": "every image, payload and depth", "why_tests_cant": "all doubles as depths, all images and payloads", "anchors": ["lib/sia/rust/embedding/src/lib.rs:embed", "lib/sia/rust/embedding/src/lib.rs:extract", "lib/sia/rust/embedding/src/io/steganography.rs:read", "lib/sia/rust/embedding/src/io/steganography.rs:write"]}
{"id": "C64", "title": "A step of zero switches content authentication off", "statement": "With step 0.0 every positive feature falls into the largest cell, a zero or NaN one into cell 0, and a negative one aborts; the verdict of authenticate is the same for any two pictures carrying the same record, and a channel marked with step 0 authenticates after every change of content that keeps the embedded bits readable (double arithmetic, positive features).", "quantifier": "every list of positive double features, every picture, every change", "why_tests_cant": "all features and pictures", "anchors": ["lib/sia/rust/three-bit-quantization/src/lib.rs:quantize", "lib/sia/rust/three-bit-quantization/src/lib.rs:three_bit_quantization", "lib/sia/rust/three-bit-quantization/src/lib.rs:three_bit_dequantization", "lib/sia/rust/watermarking/src/process.rs:authenticate_channel", "lib/sia/rust/watermarking/src/process.rs:watermark_channel"]}
{"id": "C65", "title": "Features in double precision are accurate", "statement": "With any mathematical library accurate to one unit in the last place, calculate_features of an image with 2 to 2^14 rows and at least one, at most as many columns (1 to 11 features) in IEEE double arithmetic returns finite numbers, one per feature, each within 1/400 of the exact value, which for a square image is the modulus of the Zernike moment and otherwise rows/columns times that of the square image obtained by writing the pixels one after the other and filling up with zeros; no features requested or more columns than rows: abort. Hence on square images the eight symmetries of the square change the computed features by at most 1/200, a centrally symmetric image has computed features of at most 1/400, and two images' computed features differ by at most 2a/pi times the mean pixel difference plus 1/200. For up to 20 features an explicit error bound holds.", "quantifier": "every image of 2 to 2^14 rows and 1 to as many columns, 1 to 11 features (20 for the general bound), every mathematical library meeting the contract", "why_tests_cant": "rounding errors and cancellation for all images and libraries", "anchors": ["lib/sia/rust/zernike/src/calc.rs", "lib/sia/rust/zernike/src/lib.rs:calculate_features"]}
{"id": "C66", "title": "Marked channels authenticate, from pixels to verdict in double precision", "statement": "If the received channel differs from the marked one by at most t in every pixel, equalisation moves the pixels by at most pi*(step - 1/200)/(2a) on average, and no exact moment of the equalised source or received channel is within 1/400 + step/65536 of a multiple of half a step, then authenticate_channel of the received channel returns true, all arithmetic (features, quantisation, wavelets, cells) being IEEE doubles.", "quantifier": "every square channel of side up to 2^14 meeting the signal conditions, 1 to 11 features, step 2^-20 to 2^100, every code that decodes clean words, every key pair, every library meeting the contract, every received channel", "why_tests_cant": "all images, all noise patterns, all roundings", "anchors": ["lib/sia/rust/watermarking/src/process.rs:watermark_channel", "lib/sia/rust/watermarking/src/process.rs:authenticate_channel", "lib/sia/rust/zernike/src/calc.rs", "lib/sia/rust/three-bit-quantization/src/lib.rs"]}
{"id": "C67", "title": "factorial in double precision", "statement": "factorial(n) as a double is exactly n! for n <= 22, within a relative error of 2^-50 of n! for n <= 170, and infinity for whole n from 171 to 2^53 + 2; it never returns for negative whole numbers and for doubles above 2^53 + 2 (where n - 1 rounds back to a number above 2^53 + 2); for every other double it is gamma(1 + x).", "quantifier": "every double: whole, fractional, negative, infinite, NaN", "why_tests_cant": "all arguments; non-termination cannot be tested", "anchors": ["lib/sia/rust/utils/src/math.rs:factorial"]}
{"id": "C68", "title": "The command line is read as documented", "statement": "The tool accepts exactly the command lines made of file names (words not beginning with a dash, or a single dash), -s/-o with a value (joined, separate, or after -- with = or separate), -h/--help (also clustered before -s/-o), and everything after --, with no option given twice; it then works on the files in the order given, with that suffix and folder wherever they stood. Any other command line ends the program before anything is changed; with help, without files or without a suffix it ends normally and changes nothing.", "quantifier": "every list of words", "why_tests_cant": "infinitely many command lines and orders of words", "anchors": ["lib/sia/rust/cli/src/main.rs:main"]}
{"id": "C69", "title": "What the tool writes authenticates", "statement": "After a run without output collisions every output file can be read back, and all colour channels of the picture read back get the verdict true with the tool's settings (depth 100, step 1, 11 features, 3 levels), if the source channels have a readable side and no pixels near 0 or 255, the codec changes no pixel of the marked picture by more than the noise t allowed by the depth, and marking, coding and equalisation move no feature by more than one step.", "quantifier": "every file system, list of inputs, lossless or lossy codec, code and key pair meeting the contracts", "why_tests_cant": "all pictures, codecs and batches", "anchors": ["lib/sia/rust/cli/src/main.rs:process", "lib/sia/rust/watermarking/src/lib.rs:watermark", "lib/sia/rust/watermarking/src/process.rs:authenticate_channel"]}
{"id": "C70", "title": "The tool's report is true", "statement": "Among the tool's own lines (the library's debugging output aside), the k-th line 'Watermarked P (c -> c channels) in T' is printed only when the output file P of the k-th input holds everything the encoder wrote for the watermarked picture, at whatever point the run is observed; the two channel counts are always equal; a run prints as many such lines as there are inputs if it ends normally and fewer otherwise; without a suffix it prints one line and changes nothing.", "quantifier": "every file system, list of inputs, codec, clock, every point of the run", "why_tests_cant": "all histories of a run", "anchors": ["lib/sia/rust/cli/src/main.rs:process", "lib/sia/rust/cli/src/timer.rs"]}
{"id": "C71", "title": "The signature binds a record to feature cells only", "statement": "Whoever can read one accepted picture can, without the secret key, embed its perturbation bits and signature with any text of at most 255 bytes into any other suitable picture, and every result whose features are restored to the same cells is accepted; the text has no influence on the verdict. In exact arithmetic: every picture whose features are within one step of the signed ones is accepted with that record, and a mirrored or rotated picture has exactly the record of the original, so that the extracted bytes embedded into it give what the key holder would have produced.", "quantifier": "every accepted picture, every other picture, text, depth, number of levels, all eight symmetries", "why_tests_cant": "all pairs of pictures; absence of a protection", "anchors": ["lib/sia/rust/watermarking/src/process.rs:authenticate_channel", "lib/sia/rust/watermarking/src/process.rs:watermark_channel", "lib/sia/rust/watermarking/src/watermark.rs:deserialize", "lib/sia/rust/embedding/src/lib.rs:embed"]}
{"id": "C72", "title": "Steps outside the range of the features switch content authentication off", "statement": "In double arithmetic, if every feature is at least 2^64 steps, all features fall into the largest cell whatever their values and perturbation bits, and a marked channel authenticates after every change of content that keeps the embedded bits readable and the features that large. In exact arithmetic, with a features and a step of at least 510 a / pi (1786 for the 11 features the programs use), every square picture carrying the record of a marked channel is accepted. The program in double precision, with a step of at least 16384 and up to 11 features, writes one and the same record into every picture and accepts every picture that carries it.", "quantifier": "every list of features, every step, every picture", "why_tests_cant": "all features and pictures", "anchors": ["lib/sia/rust/three-bit-quantization/src/lib.rs:quantize", "lib/sia/rust/three-bit-quantization/src/lib.rs:three_bit_dequantization", "lib/sia/rust/watermarking/src/process.rs:authenticate_channel"]}
{"id": "C73", "title": "What the page shows authenticates", "statement": "In every session of the web page in which all file readers have ended, in the order of the choices, and the last file was readable and its channels are markable, the second canvas shows the marked version of that last file, and every colour channel saved from that canvas, even with a pixel error up to the noise allowed by the depth, gets the verdict true with the page's settings (depth 500, step 1, 11 features, 3 levels), if marking and saving move no feature by more than one step.", "quantifier": "every session (sequence of arrivals, choices, cancellations and reader ends), file, picture, noise, code and key pair meeting the contracts", "why_tests_cant": "all schedules of readers and all pictures", "anchors": ["lib/sia/rust/web/src/lib.rs:get_watermarking_process", "src/Content/Content.tsx:Content", "lib/sia/rust/watermarking/src/process.rs:authenticate_channel"]}
{"id": "C74", "title": "Exit status of the command line tool", "statement": "The tool exits with status 0 exactly if the command line was understood and either asked for no work (help, no files or no suffix) or every input, in turn, was read, decoded, watermarked and stored in the usable output folder (or, without one, in the current folder); then the files are as completing the inputs one after the other leaves them. It exits with status 1 exactly if there was work and the output names something that exists and is not a folder; then it prints one line saying so and changes no file. In every other case the status is 101.", "quantifier": "every command line, file system, codec and picture", "why_tests_cant": "all command lines and histories of a run", "anchors": ["lib/sia/rust/cli/src/main.rs:process", "lib/sia/rust/cli/src/main.rs:main"]}
{"id": "C75", "title": "Debug and release builds, 32-bit and 64-bit targets agree", "statement": "For every image whose sides are below 2^31 and whose pixel count is below 2^53 and a usize (and whose squared width is a usize), embed, extract, watermark_channel, authenticate_channel and watermark return the same values whether or not integer overflow is checked and whether usize has 32 or 64 bits, namely those computed with unbounded integers, for every depth, payload and number of levels (including 0 and those beyond 30) and every step that is not negative. The exceptions: a feature at or below -2^63 steps makes quantization panic in a debug build only; the inverse transform of more than 32 levels aborts in every build, but with different panics; the pseudo-random generator seeded with the largest usize panics in a debug build and continues with seed 0 in a release build; a side from 2^31 to 2^32-1 makes embed and extract panic on 64-bit targets.", "quantifier": "every build, target, image, payload, depth, step, number of levels and features", "why_tests_cant": "all inputs on several platforms at once", "anchors": ["lib/sia/rust/embedding/src/haar/mod.rs:dwt_2d", "lib/sia/rust/embedding/src/lib.rs:embed", "lib/sia/rust/embedding/src/io/steganography.rs", "lib/sia/rust/encoding/src/lib.rs", "lib/sia/rust/three-bit-quantization/src/lib.rs", "lib/sia/rust/zernike/src/lib.rs:get_order_by_features_amount", "lib/sia/rust/utils/src/pseudo_random.rs"]}
{"id": "C76", "title": "Objects handed to the page keep their values", "statement": "The image and process objects the wasm library gives to JavaScript behave as values, over every history of calls: a getter returns what the constructor or the last setter on that object was given (sizes modulo 2^32) whatever is done to other objects; get_source and get_watermarked return new objects, changes to which do not reach the process; an object passed by value to a constructor or setter, or freed, is empty afterwards and every later use of it throws. Bytes are the exception: all copies of an image share one array, so a store through one is seen through all. The page's own record (made when a file is shown) has the format, sizes and bytes of the computation's result, with its own copies of the bytes, and no later call changes it except a store into its arrays. The page's text names the format guessed from the file, in capital letters, and the size of the decoded picture, above two pictures of that size; where nothing could be computed it says it is loading.", "quantifier": "every history of calls on the objects, every file and setting, every later history", "why_tests_cant": "all histories of calls and aliasings", "anchors": ["lib/sia/rust/web/src/image_model.rs", "lib/sia/rust/web/src/watermarking_process.rs", "lib/sia/rust/web/src/lib.rs:get_watermarking_process", "src/Content/utils.ts:toWatermarkingProcess", "src/WatermarkingPreview/WatermarkingPreview.tsx"]}
{"id": "C77", "title": "What the library prints", "statement": "Marking or authenticating a channel prints, and the printing changes no result. Whatever happens, the labels printed by a marking call are the first lines of one fixed list (moment indices, moments, features, cells, perturbation bits, signature, record, record bytes, capacity, data, data with length, framed data, its bit length, and, if the capacity has a code, the code's size and the number of words); a call that succeeds prints the whole list, with exactly the values it used; how many lines a failing call printed tells where it failed. The same holds for authentication, whose lines do not depend on the signature check: the verdict cannot be read off the output. The record printed when a channel is marked is printed again when it, or anything within the noise bound, is authenticated. A picture that is marked prints the lines of its red, and if it has colour of its green and blue channel. No line of the library begins like the tool's report.", "quantifier": "every channel, depth, step, number of features and levels, code and key; every picture within the noise bound", "why_tests_cant": "all inputs and all ways a call can fail", "anchors": ["lib/sia/rust/watermarking/src/process.rs:watermark_channel", "lib/sia/rust/watermarking/src/process.rs:authenticate_channel", "lib/sia/rust/embedding/src/io/data.rs", "lib/sia/rust/embedding/src/lib.rs:get_domain_capacity", "lib/sia/rust/encoding/src/lib.rs", "lib/sia/rust/image-features/src/lib.rs", "lib/sia/rust/zernike/src/lib.rs"]}
{"id": "C78", "title": "A standard output that stops working", "statement": "If standard output accepts every line, the tool's changes, reports and exit status are the ordinary ones. If it fails after any number n of lines (closed pipe, full disk), the tool ends with status 101 and the files are exactly as after an ordinary successful run on the first k inputs, for some k with 13 k at most n: no output file is left half written because of it, and with a standard output closed from the start no file is changed. All of these k inputs have been reported, except possibly the last. On a batch without collisions every output file is either untouched or complete.", "quantifier": "every file system, codec, batch of inputs, suffix, folder and every number of lines accepted", "why_tests_cant": "all points at which the output can fail", "anchors": ["lib/sia/rust/cli/src/main.rs:process", "lib/sia/rust/watermarking/src/process.rs:watermark_channel"]}
{"id": "C79", "title": "Which features are finite numbers", "statement": "In IEEE double arithmetic, calculate_features of an image with at most as many columns as rows returns exactly features_amount values (1 to 2^51), whatever the mathematical library and however small or large the image. They are all finite numbers or none is: all are finite if at most 85 features are requested and the image has at least two rows and one column (and at most 2^14 rows); none is (each is NaN or infinite) if 86 or more are requested, because the factorials overflow, or if the image has a single pixel or none.", "quantifier": "every image with at most as many columns as rows, every features_amount from 1 to 2^51, every mathematical library that is accurate to one unit in the last place and treats NaN and infinities as IEEE 754 says", "why_tests_cant": "overflow and 0/0 for all images, amounts and libraries", "anchors": ["lib/sia/rust/zernike/src/calc.rs", "lib/sia/rust/zernike/src/lib.rs:calculate_features", "lib/sia/rust/utils/src/math.rs:factorial"]}
{"id": "C80", "title": "The built-in keys belong together, and every generated pair works", "statement": "The signatures of the program are Ed25519 (RFC 8032, with SHA-512): for every 32-byte secret, the public key computed from it and the secret form a working pair, that is, both parse, every message signed with them gives 64 bytes that parse as a signature and verify under the public key. The public key built into the program is the one computed from the secret key built into it, so that everything watermark_channel signs, authenticate_channel verifies; a marked channel authenticates without any assumption about the keys.", "quantifier": "every secret of 32 bytes, every message, every image", "why_tests_cant": "all secrets and messages; a wrong digit in a key constant would only show in an end-to-end test", "anchors": ["lib/sia/rust/signature/src/lib.rs:sign", "lib/sia/rust/signature/src/lib.rs:verify", "lib/sia/rust/signature/src/keypair.rs:generate", "lib/sia/rust/signature/src/ecdsa.rs", "lib/sia/rust/watermarking/src/process.rs:PRIVATE_KEY", "lib/sia/rust/watermarking/src/process.rs:PUBLIC_KEY"]}
{"id": "C81", "title": "What an accepted signature binds", "statement": "For a public key, a message and the first 32 bytes of a signature, at most one choice of the last 32 bytes is accepted: a signature cannot be altered there. A signature is accepted for a public key computed from a secret exactly if it has the form that the owner of the secret scalar would produce with some nonce. A signature accepted for one message is accepted for another one exactly if the SHA-512 hashes of the two (after the first half of the signature and the key) agree modulo the order of the base point. Hence if a marked channel is accepted although its restored cells are not the signed ones, or if two channels are accepted with the same signature bytes but different cells, then the two byte strings are a collision of that hash.", "quantifier": "every public key, message, signature and channel", "why_tests_cant": "unforgeability statements range over all messages and signatures", "anchors": ["lib/sia/rust/signature/src/lib.rs:verify", "lib/sia/rust/signature/src/ecdsa.rs", "lib/sia/rust/watermarking/src/process.rs:authenticate_channel"]}
{"id": "C82", "title": "The error-correcting codes the program uses repair two wrong bits per block, and not every three", "statement": "The codes are those of the CCSDS standards (TC128, TC256, TC512, TM2048, TM8192, rate 1/2) with the bit-flipping decoder, 20 rounds. The encoder keeps the data as the beginning of the code word, and the words it returns are exactly those that satisfy all parity checks, one for each data block; the code words of different data differ in at least five bits. For every data block and every received word that differs from its code word in at most two bits, decoding returns the data; for each code there are three places such that flipping them spoils the decoding of every data block. Hence decode inverts encode, encoded data survives two flipped bits in each block, embedded data survives arbitrary damage to two cells of each block, and a marked channel, what the command line tool wrote and what the page shows authenticate, without any assumption about the codes or the signatures.", "quantifier": "every code, data block, received word, input, capacity with a code, image, damage and noise", "why_tests_cant": "all data blocks and all pairs of wrong bits (2^4096 data blocks of the largest code); a wrong entry of a matrix would show for some of them only", "anchors": ["lib/sia/rust/encoding/src/lib.rs:encode", "lib/sia/rust/encoding/src/lib.rs:decode", "lib/sia/rust/encoding/src/lib.rs:get_code_for_encode", "lib/sia/rust/embedding/src/lib.rs:extract", "lib/sia/rust/watermarking/src/process.rs:authenticate_channel", "lib/sia/rust/cli/src/main.rs:process"]}
{"id": "C83", "title": "Histogram equalisation in single precision, and the program with all its libraries", "statement": "Before features are computed the samples are equalised in f32: each sample becomes 255 times the share of the samples that do not exceed it, with an error of at most 2^-13, rounded down (so at most one level from the exact formula; equal to it for pictures of at most 2^17 samples and for those whose number of samples is a power of two up to 2^24, such as 512 x 512, but not for every picture of 418 x 418). Equalising keeps the order, sends the brightest samples to 255, is undone by no increasing change of the samples, and is idempotent. It is stable: if no sample moves by more than T and no 2T consecutive grey levels hold more than the share q of the samples, no equalised sample moves by more than 255 q + 1 + 2^-12. Consequently, with the codes, signatures, equalisation and double-precision moments of the program put in, and any mathematical library accurate to one unit in the last place: if the depth fits the noise t, no pixel is too close to black or white, and the moments of the equalised original divided by the step are further from the multiples of 1/2 than the shift that marking and noise can cause, then marking succeeds and every picture within t of the marked one authenticates; all conditions are on the picture before marking. The features that are used are the ones the float code computes, including where it aborts. Every build on every target returns the same.", "quantifier": "every list of fewer than 2^32 samples; every square channel, depth, step, amount of features up to 11, noise, mathematical library within its contract, build and target", "why_tests_cant": "all pictures, all noises and all platforms' mathematical libraries", "anchors": ["lib/sia/rust/watermarking/src/process.rs:watermark_channel", "lib/sia/rust/watermarking/src/process.rs:authenticate_channel", "lib/sia/rust/zernike/src/lib.rs:calculate_features", "lib/sia/rust/zernike/src/calc.rs", "lib/sia/rust/image-features/src/lib.rs"]}
{"id": "C84", "title": "Changed contents are noticed", "statement": "A feature that has moved by more than one and a half quantisation steps (plus the rounding of double precision) from the one that was marked is never restored to the marked cell, and one and a half steps is the best possible bound. Consequently the verdict on a received picture is decided by its contents as soon as the record can still be read, that is, as long as at most two cells of each code block that carries the record are damaged, whatever happened to the rest of the picture: authentication answers, with the marked cells if every feature is within one step of the marked one, and with a rejection if any feature is further than one and a half steps away, unless the SHA-512 hashes of the two cell lists (after the first half of the signature and the key) collide modulo the order of the base point. In particular painting the lower half of a marked 512 pixel picture white, which leaves the record intact, is noticed.", "quantifier": "every marked picture, depth, step, amount of features and every received picture whose record is readable", "why_tests_cant": "all alterations of all pictures; a tampering test shows one alteration of one picture", "anchors": ["lib/sia/rust/three-bit-quantization/src/lib.rs:three_bit_dequantization", "lib/sia/rust/embedding/src/lib.rs:extract", "lib/sia/rust/encoding/src/lib.rs:decode", "lib/sia/rust/watermarking/src/process.rs:authenticate_channel", "lib/sia/rust/watermarking/src/process.rs:watermark_channel"]}
{"id": "C85", "title": "Where the mark goes, and what it does to a block", "statement": "The mark is written block by block, in rows of blocks of 2^levels pixels from the upper left corner; the blocks after the encoded record keep their pixels exactly, in double precision and for saturated pictures too (so in a 512 pixel picture watermark never touches the lower half). In a block that receives a bit all pixels are moved by the same amount, (depth * (k + 1/4) - S) / 2^levels for a one and (depth * (k - 1/4) - S) / 2^levels for a zero, where S is the sum of the block's pixels divided by its side and k a nearest integer of S / depth, then rounded and kept between 0 and 255. A consequence is that a picture of one level need not survive its own marking: for every level between 10 and 245 whose eightfold is 30 to 48 above a multiple of the depth 100, the 512 pixel picture of that level is marked without an error (one feature, every step up to 8) and the marked picture is rejected, short of a collision of the signature's hash.", "quantifier": "every square picture, payload, depth of at least 1, level count, pixel; every mathematical library within its contract", "why_tests_cant": "all pictures and payloads; that untouched blocks are reproduced exactly depends on the rounding of every transform step", "anchors": ["lib/sia/rust/embedding/src/lib.rs:embed", "lib/sia/rust/embedding/src/io/steganography.rs:write", "lib/sia/rust/embedding/src/haar/mod.rs:dwt_2d", "lib/sia/rust/watermarking/src/process.rs:watermark_channel", "lib/sia/rust/watermarking/src/process.rs:authenticate_channel"]}
{"id": "C86", "title": "Unchanged features authenticate, and pictures without features", "statement": "Features that did not change always get their cells back, for every step and all values, borders of cells, infinities and NaN included; so a marked picture, or anything within the noise bound, whose features have the source's cells and bits is accepted. Every picture that is the same when turned by 180 degrees has features in cell 0 with bits 110, whatever it shows, so all such pictures are marked with one and the same record. There is a picture of side 512 which watermark with the settings of the tool (depth 100, step 1, 11 features, 3 levels) returns unchanged and which authenticate accepts, also after any increasing change of its levels by at most 2, in every build's mathematical library.", "quantifier": "every list of features, step, square picture, centrally symmetric picture up to 2^14 pixels wide, up to 11 features, every mathematical library within its contract", "why_tests_cant": "all feature values and all symmetric pictures; that a picture is a fixed point must hold for every platform's mathematical library", "anchors": ["lib/sia/rust/three-bit-quantization/src/lib.rs:three_bit_quantization", "lib/sia/rust/three-bit-quantization/src/lib.rs:three_bit_dequantization", "lib/sia/rust/watermarking/src/process.rs:watermark_channel", "lib/sia/rust/watermarking/src/process.rs:authenticate_channel", "lib/sia/rust/zernike/src/lib.rs:calculate_features"]}
{"id": "C87", "title": "What is read from a picture, however it came about", "statement": "Extraction sees only the sums of the blocks: if the sum over a block, divided by its side, is nearer than a quarter of the depth to a multiple of the depth plus (minus) a quarter of it, that cell is read as 1 (0), in double precision, for saturated pictures too, and whether or not the picture was produced by watermark. A picture whose blocks carry an encoded payload is read as that payload; the verdict on a picture that carries a record is the verification of the record's signature against the picture's own features restored with the record's bits. In particular every centrally symmetric picture of side 512 that carries the record of symmetric pictures is accepted, and each symmetric picture with levels between 10 and 245 can be turned into an accepted one by changing each pixel by at most 9 levels, without any key.", "quantifier": "every square picture, payload, record, depth of at least 1, level count; every mathematical library within its contract", "why_tests_cant": "all pictures, including those no marking produced", "anchors": ["lib/sia/rust/embedding/src/lib.rs:extract", "lib/sia/rust/embedding/src/io/steganography.rs:read", "lib/sia/rust/encoding/src/lib.rs:decode", "lib/sia/rust/watermarking/src/process.rs:authenticate_channel"]}
{"id": "C88", "title": "The colours of a picture do not mix", "statement": "If each colour of one picture is some colour of another one of the same size, the same is true of the marked pictures, and the first can be marked whenever the second can: exchanging red and blue before or after marking makes no difference; a colour picture with only grey pixels stays grey and is marked exactly as the grey picture is, whatever the colour types and the alpha samples are. Conversely nothing ties the colours of a picture together: a picture whose red, green and blue come from three different pictures has the verdicts of those three channels.", "quantifier": "every picture of every colour type, every depth, step and amount of features, every arithmetic and all libraries", "why_tests_cant": "all pictures and all ways to exchange their colours", "anchors": ["lib/sia/rust/watermarking/src/lib.rs:watermark", "lib/sia/rust/watermarking/src/process.rs:watermark_channel", "lib/sia/rust/watermarking/src/process.rs:authenticate_channel"]}
{"id": "C89", "title": "Marking again and again", "statement": "Marking a picture that is already marked does not accumulate damage: however often a square picture is marked with the same depth, by whatever version of the libraries and with whatever steps and amounts of features, every block of 8 x 8 samples moves as a whole and is never further from the original than one single marking could bring it, 3/32 of the depth and half a level (in exact arithmetic for depths above 16; in double precision with the depth 100 of the tool: 9 levels), as long as the block keeps that distance from black and white (and, in double precision, the sum of the original block does not leave the remainder 8 when divided by 16, where rounding errors could decide a tie). The program can mark every square picture whose side is a multiple of 8, at least 216 and not 256, and so it can mark it any number of times.", "quantifier": "every number of markings, every square picture, payload and history of steps, amounts and libraries", "why_tests_cant": "a history of markings of any length; a test marks once or twice", "anchors": ["lib/sia/rust/watermarking/src/lib.rs:watermark", "lib/sia/rust/watermarking/src/process.rs:watermark_channel", "lib/sia/rust/embedding/src/lib.rs:embed", "lib/sia/rust/embedding/src/io/steganography.rs:write"]}
{"id": "C90", "title": "The last marking wins", "statement": "Embedding into a picture that already carries a payload of at most the same encoded size gives, pixel by pixel, what embedding into the original gives: nothing is left of the earlier marks, and embedding the same payload again changes no pixel. So a picture marked any number of times, by whatever libraries and with whatever steps, is the original with the record of the last marking embedded once; and if its features still have the original's cells and bits, marking it again gives exactly the marked original. This holds block by block, with one depth (above 16 in exact arithmetic; 100 in double precision), for every block of 8 x 8 samples that keep the distance of one marking from black and white and, in double precision, whose sum does not leave the remainder 8 when divided by 16.", "quantifier": "every square picture, every block meeting the conditions, every history of payloads, every library and step", "why_tests_cant": "all pictures and all histories; pixel equality must hold for every rounding of every transform step", "anchors": ["lib/sia/rust/embedding/src/lib.rs:embed", "lib/sia/rust/embedding/src/io/steganography.rs:write", "lib/sia/rust/watermarking/src/process.rs:watermark_channel", "lib/sia/rust/watermarking/src/lib.rs:watermark"]}
{"id": "C91", "title": "Running the tool on its own output", "statement": "However many times the command line tool is run, each run reading (among other inputs) the file the run before wrote, in a lossless format: that file always holds the original picture with exactly one record embedded, the one made for the picture read last, and no 8 x 8 block of a colour is moved as a whole by more than 9 levels from the original, in every block whose samples are between 10 and 245 and whose sum does not leave the remainder 8 when divided by 16. The program can be run so for ever without an error, if the picture is a square whose side is a multiple of 8, at least 216 and not 256, and the files can be written.", "quantifier": "every number of runs, every batch around the file, every suffix and folder, every lossless codec, every square picture", "why_tests_cant": "histories of unbounded length; a test runs the tool once", "anchors": ["lib/sia/rust/cli/src/main.rs:process", "lib/sia/rust/watermarking/src/lib.rs:watermark", "lib/sia/rust/embedding/src/lib.rs:embed"]}
{"id": "C92", "title": "Losses between markings do not add up", "statement": "A picture that is marked again and again with the settings of the tool, and that suffers a loss after each marking (a lossy format, an editor, dimming), keeps its brightness: as long as no single loss moves the mean of a block of 8 x 8 samples by more than 2.5 levels and the samples are between 10 and 245 before each marking, the mean of every block that carries a bit of the record is, after every marking, within 9.875 levels of the mean of the original block, however many generations have passed and however large the sum of all losses is. In exact and double arithmetic, for every depth: the loss that is made up for is a quarter of the depth less half a level per pixel. The program can mark a picture, dim it by two levels, mark it again and so on for ever, and no sample of a block that carries the record is ever more than 9 levels from the original after marking. The same for the command line tool run on its own output any number of times, in a lossy format that moves no block mean by more than 2.5 levels: what is read back is within 12.375 levels of the original's block means.", "quantifier": "every number of generations, every loss within the bound, every square picture, every library and step", "why_tests_cant": "histories of unbounded length with arbitrary losses between the steps", "anchors": ["lib/sia/rust/watermarking/src/lib.rs:watermark", "lib/sia/rust/watermarking/src/process.rs:watermark_channel", "lib/sia/rust/embedding/src/lib.rs:embed", "lib/sia/rust/embedding/src/io/steganography.rs:write"]}
{"id": "C93", "title": "Several processes of the tool at the same time", "statement": "Any number of processes of the command line tool that run at the same time on one file system, none writing a file that another reads or writes, do not disturb one another, however the operating system interleaves them and whichever of them are killed at whatever point: at any time the output files of each process are as a first part of the changes it makes alone leaves them, files that are no process's output are unchanged, every process that is given as many steps as it has changes to make and inputs to read has ended, and then it ended the same way, with the same files, as alone. So a batch that one process completes without an error may be given to one process per input, in parallel, with the same result. Without the condition the result is up to the schedule: two processes that write the same output file leave either content.", "quantifier": "every number of processes, every schedule of their steps, every crash point, every batch, file system and codec", "why_tests_cant": "all interleavings and all crash points; a test observes one schedule", "anchors": ["lib/sia/rust/cli/src/main.rs:process", "lib/sia/rust/cli/src/main.rs:main"]}
{"id": "C94", "title": "Running the tool again after a crash", "statement": "If no output of a command line is one of its inputs, attempts that were interrupted leave no trace: however many there were and wherever each was interrupted, the next complete run makes the same changes, ends the same way and leaves the same files as a run that was never interrupted, and a batch whose inputs can all be marked is completed by running it again. Without the condition this fails: a command whose second input is written over its first one marks, when run again, what it wrote itself.", "quantifier": "every number of interrupted attempts, every crash point, every batch, file system and codec", "why_tests_cant": "all crash points and all histories of attempts; a test runs the tool once and to the end", "anchors": ["lib/sia/rust/cli/src/main.rs:process", "lib/sia/rust/cli/src/main.rs:main"]}
{"id": "C95", "title": "The output folder is made, and the tree stays a tree", "statement": "Giving an output folder makes the folders that are missing on the way to it, each inside one that is there already, and no other; a path of ordinary names can be made exactly if no file is in the way and the system allows what is missing, and if a file is in the way nothing is made. If the folder cannot be made, no file changes and the tool fails (status 1 if the path is a file); with an empty path it fails and changes nothing. Whatever the command line, and at whatever point a run is interrupted, no folder and no file is lost, every file lies in a folder, and the only new folders are those on the way to the output folder.", "quantifier": "every tree of folders and files, every output path (with dots, double and trailing slashes), every command line, every crash point", "why_tests_cant": "all trees, all paths and all crash points; a test runs in one directory", "anchors": ["lib/sia/rust/cli/src/main.rs:process", "lib/sia/rust/cli/src/main.rs:main"]}
{"id": "C96", "title": "Outputs stay in the output folder", "statement": "If the suffix has no slash, the only files a run can change, at whatever point it is interrupted, are the outputs stem-suffix.ext of its inputs stem.ext, directly in the folder the -o path leads to, or, without -o, directly in the current folder (not beside the input). Inputs with different file names have different outputs; so a batch of markable inputs with different file names, none of which is the output of another, is completed, and processes with folders of their own that hold none of the others' inputs do not disturb one another. With slashes in the suffix this fails: -s x/../../b can write b.ext in the folder above the one given with -o.", "quantifier": "every tree, every batch, every suffix without a slash, every output path, every crash point", "why_tests_cant": "all trees, names and crash points; a test sees one directory", "anchors": ["lib/sia/rust/cli/src/main.rs:process", "lib/sia/rust/cli/src/main.rs:main"]}
{"id": "C97", "title": "The tool from its command line to the tree", "statement": "For every command line and every tree, the exit status is 0 exactly if the command line was understood and asks for no work (help, no files or no suffix), or the -o folder (if given) exists or can be made and every file named, in turn, is read, decoded, marked and stored in it; then the tree is as these steps leave it. It is 1 exactly if there is work and -o leads to a file; then nothing has changed. Otherwise it is 101. At whatever point a run is interrupted, the tree is well formed, nothing has disappeared, new folders are those on the way to the -o value, and (for a suffix without a slash) a changed file is the output for a file named on the command line, in the output folder. The usage text is printed exactly for an understood command line that asks for help or names no file, word for word the same whatever the program is called, and then nothing changes.", "quantifier": "every argument vector, every tree, every crash point, every program name", "why_tests_cant": "all command lines combined with all trees and crash points; a test runs one command in one directory", "anchors": ["lib/sia/rust/cli/src/main.rs:main", "lib/sia/rust/cli/src/main.rs:process", "lib/sia/rust/cli/src/main.rs:print_usage"]}
{"id": "C98", "title": "Making the output folder while other processes do", "statement": "Processes of the tool that are started at the same time, whose -o paths are of ordinary names with no file on the way and whose missing folders may be made, never panic in making their output folders, however the system calls of the processes interleave and whatever other programs do meanwhile, as long as no folder is removed and no file put on the way. Each process is done with it after at most three calls for each name of its path and five, and then its folder is there; only folders on the ways are made and no file is touched. A process left alone makes the same folders and ends the same way as in the property of the output folder (C95). The one way to fail is the check before the folder is made, which asks two questions: if another process makes the folder between them, the process exits with status 1 saying that the output is not a folder, although it is. This can happen only to an output folder that was missing at the start, and, among processes of the tool, only if the folder is on the way to another one's output folder.", "quantifier": "every number of processes, every interleaving of their system calls, every tree, every output path of ordinary names, every other change in between", "why_tests_cant": "all interleavings and all trees; a test observes one schedule", "anchors": ["lib/sia/rust/cli/src/main.rs:process"]}
{"id": "C99", "title": "Several processes on one tree, output folders included", "statement": "Any number of processes of the tool run at the same time on one tree of folders and files, each making its output folder itself. The inputs are files, the -o paths are of ordinary names with no file on the way and may be made, the suffixes have no slash, and no output of one process is an output or an input of another one or on the way to its output folder; the output folders themselves may be shared. Then, however the steps are interleaved and whichever processes are killed: the tree stays a tree, no folder disappears, new folders are on the ways to output folders, and only outputs change; at every moment the outputs of a process are as after a first part of what it does alone; when it is done it has ended the same way as alone, and its outputs are the same. A process is done after a bounded number of its own steps, unless it gives up with status 1 in the race for a missing output folder (C98), which cannot happen if the folder was there at the start or is not on the way to another one's, and then nothing of its files has changed. When all are done, the tree does not depend on the schedule.", "quantifier": "every number of processes, every schedule, every point at which processes are killed, every tree, batch, suffix and output path meeting the conditions, every codec", "why_tests_cant": "all interleavings and all kill points on all trees; a test observes one schedule", "anchors": ["lib/sia/rust/cli/src/main.rs:process", "lib/sia/rust/cli/src/main.rs:main"]}
{"id": "C100", "title": "Processes that write the same output", "statement": "Any number of processes of the tool run at the same time, and some of them have outputs in common; each has the file open for itself and writes at its own position. Whatever they do, however their system calls interleave and whichever are killed: a file is as it was at the start, or each of its bytes is zero or one that a process, having read an input with this output, means to write at this place. If all inputs can be marked, none of them is an output, and inputs with the same output mark to the same bytes (the same command started several times, for example), then no process fails, an output is at every moment as before or no longer than the right bytes and right in every byte that is not zero, and once one process that writes it has ended and the others that began have ended, it is right; so a command started any number of times leaves the files it leaves alone, and starting it again makes good whatever killed processes left. A process that is scheduled again and again ends, so with finitely many of them and none killed the files settle there. Processes that share no output do, system call by system call, what C93 says. Without these conditions it fails: if the bytes differ, all can end without an error and the file be the beginning of one output with the end of another; if one of them is killed, another one can end without an error and the file have zeros in the place of bytes.", "quantifier": "every number of processes, every schedule of their system calls, every point at which processes are killed, every set of files, every batch, every encoder that writes its file from the beginning to the end", "why_tests_cant": "all interleavings and all kill points; a test observes one schedule", "anchors": ["lib/sia/rust/cli/src/main.rs:process", "lib/sia/rust/cli/src/main.rs:main"]}
{"id": "C101", "title": "A tree with symbolic links", "statement": "On a tree of folders and files that also has symbolic links, with the output folder already there: a path is found exactly if it leads somewhere, each link on the way (the last part included) replaced by its text, with at most 40 links followed; without links everything is as in the properties of the plain tree (C95, C96). However the command ends or is killed, the folders, files and links stay a tree, no link is changed, and each changed file is where an output path leads. If the -o path leads to a folder, through links or not, an output whose name is not that of a link is in that folder, so if no output's name is that of a link nothing outside the folder -o leads to is changed, and a batch with different names whose inputs can be marked ends without an error, each output in that folder holding the marked picture, every other file (the inputs, if they are elsewhere) as before. If -o leads to a file the exit status is 1 and nothing is changed. A link to itself is an error as an input or as the output folder, and nothing is changed. But an output whose name is that of a link goes where the link leads: the file there, which may be the input itself or any file of another folder, is overwritten, the command ends without an error, and there is no file with the output's name.", "quantifier": "every tree with links, every batch, suffix and -o path, every crash point, every codec", "why_tests_cant": "all trees and links combined with all inputs and crash points; a test runs one command in one directory", "anchors": ["lib/sia/rust/cli/src/main.rs:process"]}
{"id": "C102", "title": "Making the output folder through symbolic links", "statement": "On a tree with symbolic links, the command makes the output folder if it is missing. Making it only adds folders, each in a folder that is there already and where nothing was, no link either; each new folder is where a first part of the -o path leads, links followed, and if there is no error the whole path then leads to a folder. If a first part of the path leads to a folder, through links or not, and the next name is not there, exactly the folders of the remaining names are made inside it, one in the other; if the path leads to a folder already nothing is made; if a link on the way or at the end leads to no folder (a dangling link, a link to itself or to a file), making it is an error and nothing is made; after an attempt killed when it had made some of the folders, making the folder again makes exactly the remaining ones; without links folders are made as in C95. If the folder cannot be made no file is changed and the command is an error; if it can, the run goes on as on the tree with the folder (C101): a batch with different names whose inputs can be marked ends without an error, each output in the folder the path leads to, and every other file is as before. However the command ends or is killed, after any number of the folders or of the changes of files, the folders, files and links are a tree, no link is changed and no folder removed, and each changed file is where an output path leads.", "quantifier": "every tree with links, every -o path, every batch and suffix, every crash point, every codec", "why_tests_cant": "all trees and links combined with all paths and crash points; a test makes one folder in one directory", "anchors": ["lib/sia/rust/cli/src/main.rs:process"]}
{"id": "C103", "title": "Files with several names", "statement": "On a tree where a file can have several names (hard links) besides symbolic links: at whatever point the command ends or is killed, a name reads otherwise than before only if its file is the one an output path leads to. If none of the outputs is there before, a batch with different names whose inputs can be marked ends without an error, each output reads as the marked picture, and every name that was there reads as before. In general, if the outputs are different files and none is the file of an input, all names of an output's file read as the marked picture and all other names as before. So an output that is there already and has another name, a backup made with hard links say, takes the backup along: both read as the new picture; and an output whose name is another name of its input replaces the input; both without an error. If every file has one name everything is as in C101.", "quantifier": "every tree with symbolic and hard links, every batch, suffix and -o path, every crash point, every codec", "why_tests_cant": "all trees and all ways of sharing files combined with all inputs and crash points; a test runs one command in one directory", "anchors": ["lib/sia/rust/cli/src/main.rs:process"]}
{"id": "C104", "title": "From the command line to a tree with symbolic links", "statement": "On a tree with symbolic links, whatever words the command is started with: its exit status is 0 exactly if the words were understood and asked for no work (help, no files, no suffix), or the -o folder, if given, can be made or is there, links followed, and every input in turn is read, decoded, marked and stored; it is 1 exactly if there is work and -o leads, through links or not, to a file, and then nothing has changed; otherwise it is 101. The usage text is printed exactly if help is asked for or no file is named, and then nothing changes. After a successful run the folders, files and links are exactly as the inputs, completed one after the other, leave them. At whatever point the command ends or is killed, the tree is well formed, only folders where nothing was are new and only for the value of -o, no link has changed, and each changed file is where the path of an output, for a file named, leads: for a suffix without a slash, directly in the output folder, or where a link with the output's name leads. Without links all this is what the command does on a plain tree.", "quantifier": "every command line, every tree with links, every crash point, every codec", "why_tests_cant": "all command lines and all trees combined with all crash points; a test starts one command in one directory", "anchors": ["lib/sia/rust/cli/src/main.rs:main", "lib/sia/rust/cli/src/main.rs:process", "lib/sia/rust/cli/src/main.rs:print_usage"]}
{"id": "C105", "title": "Making the output folder where files have several names", "statement": "On a tree with symbolic links where files can have several names, the command makes the output folder if it is missing, as it does where each file has one name. At whatever point it ends or is killed: only folders where nothing was are new, and a name reads otherwise than before only if its file is the one an output path leads to. If the folder cannot be made no file changes and the command fails. If it can, and none of the outputs of a batch is there before (as when the folder is new), no file that was there changes under any of its names, and every output holds its picture.", "quantifier": "every tree with symbolic and hard links, every batch, suffix and -o path, every crash point, every codec", "why_tests_cant": "all trees and all ways of sharing files combined with all paths and crash points; a test runs one command in one directory", "anchors": ["lib/sia/rust/cli/src/main.rs:process"]}
{"id": "C106", "title": "Running again after a crash, through symbolic links", "statement": "On a tree with symbolic links, let the command with a suffix and a -o path be started any number of times and be killed each time at any point: after it has made some of the folders of the output folder, or after some of its changes of files. If the output folder can be made and no output path leads where an input path leads, the next run that is not killed makes exactly the folders that are missing, makes the same changes of files and ends in the same way as if there had been no attempts before, and leaves exactly the same tree: the same folders, files and links.", "quantifier": "every tree with links, every batch, suffix and -o path, every list of crash points, every codec", "why_tests_cant": "all histories of crashes, while folders are made or later, on all trees; a test kills one run at one point", "anchors": ["lib/sia/rust/cli/src/main.rs:process"]}
