# Formal model of sia-watermarking-rust — design

## Layout

* `lean/Verif/Model/*`  the model, function by function; every definition cites the file and lines of `/repo` it models and
  says where it simplifies.
* `lean/Verif/Spec/*`   small specifications used in theorem statements, independent of the model's helpers (block sums, Zernike
  polynomials and moments, bit formats, binary64 values, contracts of dependencies).
* `lean/Verif/Lemmas/*` helper lemmas.
* `lean/Verif/Props/*`  the property theorems, one file per subject, each with a concrete case that meets its hypotheses.
* `lean/Verif/Tests/RepoTests.lean`  the repository's unit tests run on the model by the kernel (a check of the model, not a proof
  of a property).
* `properties.jsonl` the properties, `MANIFEST.json` property → theorems, `AXIOMS.md` axioms of every theorem named there
  (generated from `#print axioms`), `seeded/LOG.jsonl` the log of wrong programs tried.
* `tools/` generators of the above files.

## Trusted base

1. Lean 4.33.0's kernel (all proofs are replayed by it; `decide +kernel` is kernel evaluation; no `native_decide`, no `bv_decide`).
2. The axioms `propext`, `Classical.choice`, `Quot.sound` of Lean itself, and no others: see `AXIOMS.md`. The project adds none.
3. That the definitions under `Model/` describe the code (checked by citations, by the repository's own tests in
   `Tests/RepoTests.lean`, and by the mutation log), with the simplifications listed below.
4. The contracts of dependencies listed below. Each is an explicit hypothesis of the theorems that use it, and for each an
   instance is exhibited that satisfies it, so no theorem is vacuous.

### Contracts of dependencies (hypotheses, never axioms)

| contract | stands for | used in | satisfied by |
|---|---|---|---|
| `Ldpc.DecodesClean` | `labrador_ldpc` decodes an undamaged code word | C11, C22, C24, C38, C66 | `Ldpc.toy`; the codes of the program, `Ldpc.ccsds` (C82) |
| `Ldpc.CorrectsBits` | it corrects up to t wrong bits | C12, C47 | `Ldpc.nearest`; with t = 2, and not 3, `Ldpc.ccsds` (C82) |
| `Ed25519.KeyPair` | a signature made with the secret key verifies under the public key | C38, C50, C66 | `Ed25519.toy`; for the built-in keys `Ed25519.rfc8032` (C80) |
| `equalize_length`, `OrderOnly`, `HistogramOnly` | `imageproc` histogram equalisation keeps the size; depends only on the order of grey levels; depends only on value and histogram | all of C36–C41; C53; C71 | `equalizeExact` (its documented formula); `equalizeSingle` (as computed in `f32`, C83) |
| `Deps.Exact` / `Deps.Computed M` | feature values are the exact / the computed Zernike moments | C38, C39, C49 / C66 | `Deps.toyReal` / `Deps.computedDouble`, `Deps.program M` (C83) |
| `Libm.Lawful` | `powf`, `sqrt`, `atan2`, `hypot`, `exp`, `cos`, `sin` have an error of at most one unit in the last place | C65, C66, C79 | `idealLibm` |
| `Libm.Special` | NaN goes through `powf` (exponent not 0) and `sqrt`; `hypot` of two lost numbers is lost; `hypot` of finite numbers up to 2^500 is finite | C79 | `carefulLibm` |
| `World`, `WebWorld` | file system, codecs, decoder, browser events | C43, C58–C60 | `toyWorld`, `toyWeb` |

`LawfulFloat` (standard model of rounding: relative error u, absolute error below 2^-200, magnitudes up to 2^200) and `IntExact`
are not assumptions: they are proved for `ℝ` and for `F64`. `F64` itself is proved to be IEEE 754 binary64 arithmetic, that is,
rounding to a nearest binary64 value with ties to even and overflow from half a unit above the largest value
(`f64_nearest`, `f64_ties_to_even`, on infinities and NaN `f64_nan`, `f64_compare`, `f64_add_infinite`, `f64_sub_infinite`,
`f64_mul_infinite`, `f64_div_special` in Props/FloatSpecial.lean, `f64_overflow`, `f64_result_is_double`, `f64_operations_valid` in Props/FloatIeee.lean, against
Spec/BinarySpec.lean).

### Modelling decisions and simplifications

* A Rust panic (failed assertion, `unwrap` on `None`/`Err`, index out of range, arithmetic overflow in a debug build, stack
  overflow of a recursion that never ends) is an explicit error value of `Except Panic`. Memory exhaustion is not modelled.
* Integers: the main model uses unbounded integers and the panics of a debug build. Model/Machine.lean models the same functions with
  `i32`, `i64` and `usize` of 32 or 64 bits, checked or wrapping, and `f64` where the code divides whole numbers in `f64`; C75 proves
  that both return the same values for images with sides below 2^31.
* `f64` code is written once over a class `FloatOps F`. Instances: `ℝ` (exact) and `F64` (executable binary64). The two zeros
  are identified and NaN payloads dropped; C63 and C64 say where a negative zero could matter. `%` on `f64` is the exact remainder.
* `ndarray::Array2` is dimensions plus an index function; `GrayImage` is a row-major byte list, as in the crate. `DynamicImage` has
  the colour types the code distinguishes, 8 bits per sample; conversion to grey is the crate's integer formula.
* The Haar transform of the `dwt` crate is modelled by its documented formula with the crate's ordering of the halves (checked by the
  repository's tests, run on the model). `funty`'s `as_bool` on a `bool` is negation in the version used (the code negates it again).
* The recursion of `factorial` is modelled with fuel and the result is the one any sufficient fuel gives; no sufficient fuel means
  the stack overflows.
* The command line tool runs over an abstract file system where creating an output truncates it before the encoder writes (a crash
  between the two is one of the modelled outcomes, C43); C95 and C96 put a tree of folders and files (without links; with
  symbolic links in C101, C102 and C104) in its place, with the path operations of the Rust standard library. `getopts` 0.2.21 is modelled from its published source (not in /repo),
  specialised to the three options of `main` (C68).
* The browser part models the state machine of the page over all interleavings of file readers, `atob` and `readAsDataURL` from their
  specifications, the wasm function `get_watermarking_process` and the canvas drawing calls.
* The objects of the wasm library live on a heap of arrays and wrappers (Model/WasmObjects.lean). Passing an object by value empties its
  wrapper, calls on an empty wrapper throw, numbers become `u32` modulo 2^32, a `Uint8Array` is shared by reference: this is
  wasm-bindgen's generated code, which is not in /repo. A panic of the library is an exception (the module's later state after a panic is
  not modelled).

### Not modelled

The image codecs; how the LDPC crate computes (C82 models what the CCSDS standards and the documentation of `labrador_ldpc`
say: matrices, systematic generators, the bit-flipping decoder with its rounds; its source is not in /repo); how the Ed25519 crates compute (C80 models what RFC 8032 and FIPS 180-4 say they compute, and
their checks of keys and signatures); the source of `imageproc` (C83 models the formula and the `f32` operations of version 0.23, with
counters that do not overflow); panic messages, the rendering of values by `{:?}` (the
lines of the library and the tool are modelled, C70, C77); wall-clock time (only its formatting, C44);
React rendering and CSS; the generated wasm/JS glue beyond the rules above; logging (`web/src/logging.rs`); the benchmark; the
stub crate `pseudo-zernike` (`add`), the trait-only crates `moments` and `feature`; test constants.

## Plan and method per property

| id | modelled | proof |
|----|----------|-------|
| C01 | quantizer over `ℝ` | case split on cell difference, floor arithmetic |
| C02 | quantizer over `LawfulFloat` / `F64` | error bounds; counterexample by kernel evaluation |
| C03 | quantizer over `ℝ` | explicit witness for every eps |
| C04–C05 | quantizer, chunks | induction over lists |
| C06–C09 | bit vectors, watermark record | list lemmas; UTF-8 via Lean's `String` |
| C10 | payload record | list lemmas |
| C11–C14 | channel coder over an LDPC contract | induction over chunks |
| C15–C18 | steganographic writer/reader | cell addressing lemma (bijective iff square), rounding |
| C19–C21, C57 | 2-D multi-level Haar | one-level inverse, telescoping over levels, linearity, block sums |
| C22–C27, C46–C48 | embed / extract | composition of the above with error analysis; computation on constant matrices |
| C28–C29 | byte and hex helpers | positional arithmetic, case analysis on bytes |
| C30–C34, C49 | Zernike features over `ℝ`/`ℂ` | reindexing sums, polynomial identities, positivity of the Fourier coefficients of radial polynomials (bound by 1) |
| C35, C67 | factorial over `ℝ` and `F64` | induction; fuel semantics; invariant of the divergent recursion; kernel evaluation of the finite chain up to 171 |
| C36–C41, C50–C54 | watermark / authenticate for channels and images | composition |
| C42, C44, C45, C55, C56 | PRNG, timer, nd-array helper, integer quotients, comparison helpers | arithmetic over binary64 |
| C43, C70 | CLI batch over an abstract file system, with its console output | induction over inputs, frame conditions, crash points |
| C68 | argument parsing (`getopts`) | equivalence with a grammar (`Spec/CommandLineSpec`), both directions by induction |
| C69 | CLI composed with watermarking and authentication | composition of C43, C36–C38 with a codec of bounded noise |
| C58–C60 | browser front end | base64 by induction over triples; invariants over event sequences |
| C61–C64 | extraction invariances, re-embedding, degenerate depths and steps | quotient by block sums modulo the depth; sign symmetry of rounding |
| C65 | Zernike features in machine arithmetic over a library contract | forward error analysis (`Approx`, `Rel` calculus), cancellation bounded by coefficient sums |
| C66 | whole channel pipeline in doubles | C65 + C24 + C02 |
| C71 | records carried from picture to picture | characterisation of acceptance (C39) + C24; permutation of samples under symmetries + C31 |
| C72 | quantizer with extreme steps | monotonicity of rounding, saturation; feature bound (C49) + C01 |
| C73 | page composed with watermarking and authentication | composition of C59, C60 and C36–C38 at depth 500 |
| C74 | `main`/`process` with the three ways to end | case split on the command line (C68), induction over the inputs |
| C75 | second model with fixed-width integers, for all builds and targets (Model/Machine.lean) | refinement: both models return the same values |
| C76 | heap of wasm objects and arrays, all calls on them, the page's copying and text | frame lemmas per call, induction over histories |
| C77 | every `println!` of the library, in a monad that collects lines (Model/Log.lean) | erasure to the first model; case split on the stages of a call |
| C78 | the tool's changes and lines in one sequence, cut where standard output fails | induction over the inputs |
| C79 | Zernike features in doubles, closed form of each value (no library contract needed for totality) | magnitude bounds through the computation; loss (NaN, infinity) propagates |
| C80 | Model/Ed25519Rfc.lean: SHA-512, the curve, point encoding, signing and verifying as in RFC 8032; the value of the parameter `Ed25519` the program runs with | group law of complete twisted Edwards curves (associativity by certificates for `linear_combination`); 2^255-19 and the order are prime (Pratt certificates checked by the kernel); the order annihilates the base point and the built-in public key is the right multiple by kernel computation in projective coordinates (`decide +kernel`), proved equal to the affine definition |
| C81 | as C80, plus the record and the verdict of a channel | the base point and every public key have exactly the prime order; injectivity of the encoding of points |
| C82 | Model/LdpcCcsds.lean: parity-check matrices and generators of CCSDS 231.1-O-1 and 131.0-B (rate 1/2), `copy_encode`, `decode_bf` with 20 rounds; the value of the parameter `Ldpc` the program runs with | generator times checks is zero on the first row of each circulant, by kernel evaluation, and on all others by rotation; the parity part of the matrix is invertible (inverse in Lemmas/LdpcInverse.lean, checked by the kernel), so that the generators follow from the matrices; the decoder commutes with adding a code word (linearity) and with rotation inside circulants, so that two-bit errors reduce to those with one bit at the start of a block; these are run through a lane-parallel version of the decoder by the kernel and the version is proved equal to the definition. All data, all received words and all pairs of places are covered by the proof |
| C83 | Model/Equalize.lean: binary32 rounding and `equalize_histogram` as imageproc 0.23 computes it; Model/Program.lean: the pipeline with every library put in except the platform's mathematical library | error bounds of three binary32 roundings; counting arguments on the histogram; the moments are Lipschitz in the mean difference of pixels, so that a margin of the original's features covers marking and noise; example: a 512 x 512 ramp, its equalised samples and its moment computed by the kernel |
| C84 | as C83, received pictures that differ from the marked one arbitrarily outside the cells of the record (`Spec/TamperSpec`) | distance of cell centres against the restoring rule; uniqueness of the record read; C81 for the rejection; a ramp-free computation of the first moment for the painted picture |
| C85 | as C22/C23, pixel by pixel; pictures of one level through the whole program | error analysis of both transforms (C23) for the written and the unwritten cells; first moment after equalisation (C84) for the rejection |
| C86 | as C83; pictures that a turn by 180 degrees does not change | the restoring rule is the identity on its own bits; the odd moments of a symmetric picture vanish (C46) and the computed ones are within 1/400 of them; the fixed point is built from the record that all symmetric pictures share, with two levels whose blocks the mark does not move |
| C87 | as C22/C85, `Carries` in Spec/LocalitySpec: what the blocks of an arbitrary picture carry | error analysis of the forward transform and of `read_bit`; the converse direction of C85; for the last part the marked upper half is mirrored into the lower one |
| C88 | Model/DynamicImage.lean, `watermark`; `IsChannel` for the channels of a picture | equal planes give equal marked channels (C37) |
| C89 | Model/Embedding.lean, Model/Watermarking.lean; histories as the reflexive transitive closure of "is marked to", whatever the libraries, step and amount are; Spec/DriftSpec.lean for blocks and their sums | invariant: the block is the original one shifted by an integer, and its value is within 3/4 of the depth of the original value; the value after a marking is determined by the cell and the bit, and the cell is not left by rounding if the depth is above 16 (Props/DriftProps, DriftImageProps, DriftExamples) |
| C90 | as C89; the cell number `k` of a block as a function of the picture alone (`embed_block_round`), coefficients as functions of their block (`coeffs_congr`) | the second marking finds the same `k`, and the way from the moved block is the way from the original block minus the integer it was moved by (Props/ReplaceProps, ReplaceImageProps; examples in LargeStepProps) |
| C91 | the file system model of C43 (`World`, `processInputs`), lossless codecs as hypotheses `LosslessOn`; histories as sequences of file states (Spec/GenerationSpec) | induction over the runs: each run writes what `MarksTo` says, so the planes are a chain of markings with copies in between; C89 and C90 per plane (Props/GenerationProps; a concrete world, for ever, in GenerationExamples) |
| C92 | generations `LossyGeneration`: a marking followed by any picture of the same size whose block sum differs by at most 160 (Props/NoisyImageProps) | the value of a marked block is within 4 + slack of depth * (k ± 1/4), ties included (`embed_block_mean`), so after a loss below the rest of the quarter the next marking rounds to the same k (`same_cell`); induction over the generations (Props/NoisyGenerationProps, NoisyExamples); for the tool in a lossy format, Props/NoisyCliProps |
| C93 | processes `Run` whose steps are the reading of an input and the single changes of a file, interleaved by an arbitrary schedule (Model/Concurrent); commands, what they read and write, `Independent` (Spec/ConcurrentSpec) | what a process still does when left alone (`Run.rest`) is an invariant of its own steps and does not depend on files others write; induction over the schedule, decreasing number of steps (Props/ConcurrentProps; races and concrete cases in ConcurrentExamples) |
| C94 | `attempts`: the files after runs each cut off after a given number of its changes (Spec/ConcurrentSpec); the tool as in C73/C91 | a run depends only on the files it reads (`processInputs_congr`), changes made again from the beginning overwrite a first part of them (`after_take_again`); induction on the attempts; `rerun_differs` shows the condition is needed |
| C95 | `Disk` (folders and files without links), path resolution, `mkdir`, `create_dir_all`, `canonicalize`, `File::create` and the loop of `process` on it (Model/FileTree) | strong induction on the path for `create_dir_all`; induction on the names for the exact criterion; refinement to the abstract file system of C43 (`inputs_refines`), invariant `Disk.Sound` over all changes |
| C96 | as C95 | resolution of absolute paths and bare names; C43 transported along the refinement; injectivity of the output names; a concrete tree for the escaping suffix |
| C97 | `main` on the tree (`Model/CliTree.lean`): `argv`, getopts (as C68), the usage text, `process` (as C95) | C68's grammar composed with C95, C96 and C74's characterisation of runs; the text by kernel evaluation for a variable program name |
| C98 | lines 20-28 of `main.rs` and `create_dir_all` as a machine of single system calls, several of them on one tree with arbitrary changes by others in between (`Model/FolderRace.lean`; `WayClear`, `Course` in `Spec/FolderRaceSpec.lean`) | an invariant of each process's stack of pending paths against a growing tree, a decreasing number of calls, refinement of the undisturbed machine to C95's `create_dir_all`; the lost race as a theorem about every such tree |
| C99 | whole processes (`Model/TreeProcesses.lean`): the machine of C98, then the loop in steps of reading an input and of single changes, on one tree (`Ready`, `JobsApart` in `Spec/TreeProcessesSpec.lean`) | a round depends on the tree only through the content of its input and whether its output is a folder; simulation of each process by its run alone on a tree of its own, invariant over the schedule; number of steps counted in the invariant |
| C100 | `Model/SharedOutputs.lean`: the machine of C93 with the system calls `create` and `write at the position of the process` (`patch`, POSIX: a gap is filled with zeros); `SameBytes`, `PartlyWritten` in `Spec/SharedOutputsSpec.lean` | invariant: a created file has a right beginning, whose writer (the last to create it) is still at work at its end; provenance by an invariant with the schedule so far; `shared_refines` by simulation with the machine of C93; the two failures by schedules of eight and six steps |
| C101 | `Model/LinkTree.lean`: the tree of C95 with links (place and text), `LinkDisk.follow` (resolution with a budget of links), and the file system of `Model/Cli.lean` it gives (`Host.linkWorld`); `LeadsTo` (inductive), `LinkOutputsIn`, `NoLinkAt` in `Spec/LinkTreeSpec.lean` | `follow_iff` by the induction of `follow`; resolution ends at no link and at a folder or in one; outputs by walking plainly up to the last part; safety and batches from the theorems of C43 over any file system; `link_replaces` and `link_loop` on what goes wrong, with concrete trees |
| C102 | `Model/LinkFolders.lean`: `mkdir` and `create_dir_all` on the tree of C101 (`mkdir` does not follow its last part), and the whole of `process` (`Host.linkProcess`) | as C95 by the induction of `create_dir_all`, with splitting and joining of `LeadsTo`; what is made exactly, by induction on the new names; the run by C101 on the tree with the new folders; after an interruption, by induction on the path: more folders only turn a missing name into a folder |
| C103 | `Model/HardLinks.lean`: the tree of C101 and which names are of one file (`same`); `OneFile`, `read` in `Spec/HardLinksSpec.lean` | from the theorems about batches and changed files over any file system (C43), places being files instead of names |
| C104 | `main` on the tree with links (`Model/LinkMain.lean`): as C97, with `Host.linkProcess` of C102; `LinkNamesFile`, `linkPrepared` in `Spec/LinkMainSpec.lean` | C68's grammar composed with C101, C102 and C74's characterisation of runs; agreement with C97 where there are no links |
| C105 | `Model/HardFolders.lean`: `process` with the output folder made (`Host.hardProcess`), on the tree of C103 | C102 for the folders, C103 on the tree with the new folders |
| C106 | `Host.linkAttempts`, `Host.linkCompleted` (Spec/LinkRecoverySpec): the tree after runs of C102 cut off after a given number of their changes, folders first | an invariant of the attempts (`Underway`): some of the folders and the files as before, or all of them and the files after some attempts of C94; the folders by `link_folders_resume` (C102), the files by C94 |

No property of the list is inexpressible in the model; where a statement is restricted (exact arithmetic, square images, ranges),
the restriction is part of the property's text and of the note in `MANIFEST.json`.

## Findings about the code

Statements a user might expect that are false of the code, each backed by a theorem:

1. The one-step noise tolerance of the quantizer (C01) fails in doubles at cell borders: step 1, feature 1, received 1 − 2^-53 is
   restored to 2 (`dequantization_double_counterexample`).
2. `decode(encode x)` loses data for unsupported capacities; `get_domain_capacity` accepts 9 bytes although its message asks for 16 (C13).
3. Inputs of 65536 bytes or more wrap the 16-bit length; payloads of 65534/65535 bytes embed but their extraction aborts; an empty
   payload record is unreadable (C10, C27).
4. Extraction always aborts when the capacity is not a multiple of the code's block, e.g. for 1000 x 1000 images (C48, C51).
5. Non-square domains: writing aborts or two bits share a cell; portrait images abort, landscape images cannot be authenticated (C16, C41, C52).
6. Saturated images lose data; black images read as all ones, and extraction aborts on unsupported capacities (C25, C46).
7. Authentication checks only as many features as the *embedded* record says; an empty perturbation vector checks none (C40).
   Hex input accepts "+f" (C29). At most 85 features fit; 256 x 256 images are always rejected.
8. `factorial` never returns for negative whole numbers, nor in doubles above 2^53 + 2 (C35, C67); 0 features underflow.
9. CLI outputs may overwrite later inputs or earlier outputs; an output is truncated before it is encoded (C43).
10. `decode_hex` aborts on odd-length input unless an earlier pair already failed (C29).
11. Every centrally symmetric image, in particular every constant one, has all features zero (C32).
12. `verify` aborts instead of returning false on malformed signatures and keys (C50).
13. The PRNG's `generate(a, b)` can return `b` in doubles; the seed `usize::MAX` overflows (C42).
14. `vector_2d_as_nd_array` silently reshapes some ragged vectors; `assert_approximately_equals_1d` ignores missing elements (C45, C56).
15. Front end: data URLs whose subtype is not alphanumeric throw; a slower earlier read replaces a newer choice; a failing demo image
    leaves "Loading..." for ever; in development builds the demo image can replace a chosen file (C58, C60).
16. Depth 0/NaN is accepted and blackens blocks; a negative depth stores complemented bits that extraction returns complemented (C63); step 0
    switches content authentication off (C64), and so do steps below 2^-64 of the features or above their largest value (C72).
17. A record is not bound to a picture except through the feature cells: it can be copied to other pictures (always to mirrored and
    rotated ones) and its text replaced without the secret key (C71), which moreover is a constant of the program.
18. Features of high order suffer cancellation in doubles: the proved error is at most 1/400 up to 11 features (order 21); the
    coefficient sums grow like 1.8e7 (order 21), 1e11 (31), 6e14 (41) (C65).
19. `get_source`/`get_watermarked` return copies that share their bytes with the process; the page is safe because it slices (C76).
20. The library prints the whole record, signature included, to standard output, but never the verdict (C77); a closed standard output
    makes the tool panic, because of the library's lines already before the first file is written (C78).
21. 86 features or more, or a picture of one pixel, give only NaN and infinities instead of an error (C79).
22. The secret key and the public key are constants of the program: a record without cells, signed once, authenticates everywhere
    (`empty_record_authenticates_rfc8032`, C40, C80).
23. The decoder is the simple bit-flipping one: although code words differ in at least five bits, each code has three
    places whose flipping it does not repair, whatever the data (C82).
24. In `f32` an equalised level can be one above the documented formula (for example with 972549 of 1000000 samples at most as bright:
    248 instead of 247), so the features are not those of the documented formula (C83).
25. A picture of one level can be marked without an error although its marked version is rejected: equalisation turns the small
    differences that the mark makes between the upper and the lower half into large ones (`flat_picture_rejected`, C85).
26. A picture that a turn by 180 degrees does not change has no features (the moments used are all of odd repetition): all such
    pictures share one record, and each can be turned into an accepted one without the key (`symmetric_pictures_forgeable`, C87).
27. The colours of a picture are marked one by one and nothing ties them together: a picture put together from the colours of three
    accepted pictures has three accepted channels (`mixed_colours_authenticate`, C88).
28. Marks are not layered: a second marking removes the first one without a trace, and a picture does not tell how often, or by whom, it was
    marked before (`last_marking_tool`, C90). With a step of 16384 or more all pictures have one and the same record
    (`large_step_program`, C72).
29. The check of the output folder asks two questions (`!is_dir() && exists()`): of two processes started at the same time with the same
    missing output folder, one can exit with status 1 saying that it is not a folder, although it is one (`folder_race_lost`, C98).
30. Outputs are written in place, without a lock or a temporary file: of two processes with one output and different bytes, both can end with
    status 0 and the file be a mixture, the output of neither (`shared_mixed`, C100); of two with the same bytes, if one is killed, the other
    can end with status 0 and the file have zeros in it (`shared_killed`). Running the tool again repairs it (`shared_again`).
31. `File::create` follows a link that happens to have the output's name: the file it leads to (the input itself, or a file of any other
    folder the user may write) is overwritten, with exit status 0 and no file of the output's name (`link_replaces`, C101).
32. An output that is there already is emptied and written again, not replaced by a new file: other names of it (a backup made of hard
    links) change with it (`hard_backup`, C103), and if the input is one of them it is lost (`hard_input`).

## Numeric slacks

`embedSlack F64 levels ≤ 2^-26` for at most 3 levels; quantizer margin `u (3K + 12)` for features up to `K` steps; features 1/400
(C65); the distance of two machine libraries enters only through `Libm.Lawful`.
