# Formal model of rsbeams: design

The model is written in Lean 4 (4.33.0, with single Mathlib modules where real
analysis or matrices are needed). `properties.jsonl` has the claims in English,
`MANIFEST.json` maps each claim to theorem names, `seeded/LOG.jsonl` records the
attempts to break the theorems with wrong programs.

## Layout

- `lean/Verif/<Area>/Model.lean`: the code, function by function. Every
  definition cites file and lines in `/repo` and says where it simplifies.
- `lean/Verif/<Area>/Spec.lean` (where the specification needs more than a line):
  the independent specification. It does not use model helpers.
- `lean/Verif/<Area>/Lemmas*.lean`: helper lemmas.
- `lean/Verif/<Area>/Props.lean`: only the property theorems, each followed by an
  `example` that shows a concrete case meeting the hypotheses.

## Conventions

- Python exceptions are values: `Except PyErr α`, one constructor per exception class.
- Python non-termination is modelled with fuel. A theorem about termination says
  that some fuel suffices; a theorem about non-termination says that none does.
- Python text is `List Char`, bytes are `List UInt8`.
- Numbers in files are bit patterns (`BitVec 64` for a double, and so on). Nothing is
  rounded there, so round trip theorems are exact.
- Numbers in formulas are exact reals (or elements of an ordered field). Each such
  theorem speaks about the formula that the code evaluates, not about its rounding error.
  Rounding is modelled in separate files for some functions (C139 to C144): every
  operation is followed by a rounding, which is any odd function to a nearest number with
  53 bits and any exponent (`Py/Rounding.lean`). There is no overflow and no underflow,
  and `x**2` is a rounded product.
- Random numbers are inputs: the functions take the drawn numbers as arguments and
  theorems quantify over all of them.
- Mutable objects with sharing (numpy views, shared Element objects) are modelled
  with an explicit store where the sharing matters.

## Which code is modelled

| Code in `/repo/rsbeams` | Model |
|---|---|
| `rsdata/SDDS.py`, `rsdata/datatypes.py`, `rsdata/struct_data.py`, `rsdata/utils.py` (header, binary reading, binary writing, ASCII reading and writing, data arrays and accessors, helpers) | `Sdds/` |
| `rsdata/switchyard.py`, `rsptcls/species.py` | `Switch/` |
| `rsstats/kinematic.py` (class `Converter`) | `Kinematic/` |
| `rsstats/stats6d.py` | `Stats6d/` |
| `rsstats/sample.py` | `Sample/` |
| `rsptcls/RsTwiss2D.py`, `RsPhaseSpace6D.py`, `RsDistrib6D.py`, `RsPtclBeam6D.py` | `Ptcls/` |
| `rsptcls/bunch.py` (print_Twiss as the list of printed values) | `Bunch/` |
| `rsptcls/phases.py` | `Phases/` |
| `rslattice/nonlinear.py` (without plots) | `Nonlinear/` |
| `rsphysics/decoherence.py` (numbers, not arrays of amplitudes) | `Decoherence/` |
| `rsphysics/rsconst.py` | `Const/` |
| `rsplot/util.py` (format_symbol, plot_profile, histograms), `rsplot/RsScatterPS6D.py`, `rsplot/plot_ptcls.py` (all), `rsplot/beam_plots.py` (beamline profile, charge, current, phase space pictures) | `Plot/` |
| `rslattice/Beamline.py`, `rslattice/Element.py` | `Lattice/` |
| `rslattice/lte_parser.py` | `Lte/` |
| `rslattice/trace3d_parser.py` (TRACE 3-D and TraceWin) | `Trace/` |
| `rslattice/templates/lattice_importer.py` | `Import/` |
| `rslattice/formatted_writer.py`, `pkcli/lattice.py` | `Warp/` |

Each definition cites its file and lines. Code not in this table is not modelled.

## When the code does not have the property

Several claims users rely on are false of this code. In that case the model stays
faithful to the code, the file has a theorem with a concrete witness showing the
failure (name ends in `_fails`, `_lost`, ... and says what happens), and a theorem with
suffix `_partial` for the largest domain on which the claim holds. The manifest
status is then `partial`.

## Trusted base

- Lean's kernel and the axioms `propext`, `Classical.choice`, `Quot.sound`. No other
  axiom is used; there is no `sorry`, `native_decide` or `bv_decide`.
- The translation from Python to Lean, which is by hand. The citations in the
  comments make it reviewable.
- The behaviour of Python built-ins (`str.find`, `str.split`, `shlex`, `struct.pack`),
  numpy (`frombuffer`, `fromfile`, `column_stack`, `searchsorted`, views), h5py, pandas
  and sympy calls as described in the comments of the definitions that stand for them.
- `numpy.genfromtxt` as described in `Sdds/Ascii.lean`: lines, comments, fields, names,
  and the strict and loose number conversions. The text to double conversion itself is a
  parameter of the model; theorems about values assume that it reads integers exactly.
- `numpy.savetxt` writes one word per element with `%.18e` and blanks between them. The words
  are a parameter of the model; the theorems assume that `float` reads them back.
- `numpy.savez` and `numpy.load` lose nothing; files are a map from names to arrays.
- `numpy.histogram2d` as described in `Plot/Density.lean`.
- `scipy.interpolate.interp1d` with kind cubic goes through its nodes and reproduces straight
  lines (hypothesis of the theorems), and raises ValueError for less than four nodes, for
  repeated nodes and for lists of different lengths.
- `argparse` (Python 3.7 to 3.11) as described in `Kinematic/CommandLine.lean`.
- Exact real arithmetic in place of floating point for the numeric parts, except C139 to C144.
- `np.sum` of doubles adds as in `Sample/Rounded.lean`.

## Not modelled

- Plotting output (matplotlib calls) beyond the numbers handed to it, multiprocessing
  pools, YAML/JSON/HDF5 parsing itself (the model starts from
  the parsed tree), printing, and warnings.
- Performance and memory.

## Properties: what is modelled, how each is proved, and the result

### C01 Binary SDDS save/read round trip

Modelled: `writeSDDS._write_header`/`save_sdds` (binary) as a function to bytes; `readSDDS.__init__` and `read` as a function from bytes, with header scanning, shlex, namelist parsing, dtype composition and position arithmetic. Proof: header text produced by the writer is scanned back (induction on the parameter and column lists, shlex state machine lemmas), then record decoding is the left inverse of record encoding. Row counts of 2^31 and more are packed unsigned and read as signed 32-bit numbers; numpy reads all rows that are left and the position moves back (PropsLarge.lean, with the integer positions of Counts.lean).

Result: partial. End to end (save, open, read) for columns of one common type, any row count below 2^31. For every mix of column types, buffered reading gives back the saved page exactly when there are no rows or one column type; otherwise no read ends with a single page. Without buffer the same, and the first line behind the first byte of the row count must not be white space. With 2^31 to 2^32 - 1 rows of one type the count is read as a negative number: buffered reading never gives the saved page alone (save_read_large_fails), unbuffered reading gives it back exactly (save_read_large_partial).

### C02 SDDS metadata round trip

Same model as C01. Theorem on the parsed namelist of a written header line; witnesses for the quote, backslash, trailing comma and non-ASCII cases.

Result: partial. Every text without double quote, line end and odd final backslashes: returned exactly if ASCII, without two backslashes in a row and without final comma. Text with a double quote never returns if no text of the header has a backslash, and an odd number of double quotes in one definition makes the file unreadable. With line ends, without backslashes and double quotes: all texts return exactly if no text has an empty line or a line starting with !, no line end follows &end, and each is ASCII without final comma.

### C03 Fixed parameter values survive

Same model. Integer text conversion is modelled (decimal digits); float text conversion is a parameter with a round trip hypothesis. Witness for fixed value 0.

Result: partial. All values except exactly 0, 0.0, -0.0 and the empty text, which are always lost; exact condition for text.

### C04 Binary column bytes agree with the declared type

Writer model with dtype promotion of `column_stack`. Byte count theorem for matching dtypes, witness for long columns from 64-bit integers.

Result: partial. Exact condition: true exactly when all columns have one type (or there are no rows); false for every table that mixes two types.

### C05 Every declared parameter type can be saved

Decision theorem: saving succeeds iff each type is double or long and in range.

Result: partial. Exact condition for success; every short or string parameter with data raises.

### C06 Multi-page binary files are read completely and in order

Reader model with list of pages; induction on pages, invariant on position.

Result: partial. All files whose pages have the same number of rows; pages with different row counts make read() raise.

### C07 Page selection returns exactly the pages asked for

Same induction with a selection predicate; witness with a string column. For fixed-width buffered files the outcome for pages of any row counts.

Result: partial. Buffered files without strings, and for pages of any row counts what is returned or raised (read_selected_exact). With a string field the columns of every page up to the last selected one come back, so the claim holds exactly for selections without gaps. Without buffer, page 1 of every file of two pages of numbers (the first not shorter) comes back without rows.

### C08 Buffered and unbuffered reading agree

Model of both reading modes; witness files; partial theorem for files where no page starts with a blank remainder of line. The pages seen without buffer are a prefix of the pages of the file (PropsBuffer.lean).

Result: partial. Agree for all pages whose second byte is not white space, and exactly if behind the first byte of every page there is a line that is not white space; the unbuffered reader sees the pages before the first one that is not so. Disagree for every file whose first page has 2560 to 2815 rows.

### C09 Binary string fields are read exactly

Reader model with length-prefixed records; induction on rows and fields.

Result: partial. Exact outcome for every page of arbitrary strings, and the exact condition under which it comes back as written: ASCII, at most max_string_length, no final NUL, no empty string parameter, no empty string in the last column. The claim without these conditions is false.

### C10 Comments and blank lines in the header do not matter

Induction over header lines, insertion of comment/blank lines is absorbed by `_read_line`.

Result: proved. Any header (also multi-line namelists), any inserted or removed comment and blank lines.

### C11 Opening a file always ends

Fuel model of `_read_line`; theorem that no fuel suffices on truncated headers, and that fuel = file length + 1 suffices otherwise. The exact set of files for which opening ends is given by an inductive predicate on the lines (PropsStops.lean).

Result: partial. Complete headers end; for every byte string opening ends exactly if the lines that are not blank or comments begin with one without SDDS1, or lead to an ended &data namelist or a line that starts no namelist with all namelists before it ended (open_ends_iff); every file of comments only and every file without &data line makes the constructor loop for ever.

### C12 Quoted header values are taken verbatim

Theorem on the shlex state machine and `parse_namelist`.

Result: partial. Exact for every text without double quote and odd final backslashes in a definition that is read to its end: kept exactly if ASCII, without two backslashes in a row and final comma. In any file that opens, a double quote in a text comes from a backslash in the header, and empty lines and lines that begin with ! never return.

### C13 Explicitly written defaults mean the same as omitted ones

Witness: two headers that differ only in the explicit default and are read differently.

Result: partial. mode=binary may be written out; no_row_counts=0 switches row counts off in every header.

### C14 Multi-page ASCII files are read completely and in order

Line position model of the ASCII reader; witness with two pages; partial theorem for one page.

Result: partial. Proved for pages with equal positive numbers of rows, unbuffered, or buffered with one page or without columns. False for buffered files with two pages or more (as many lines as a table has rows are skipped behind it: ascii_buffered_gaps is what is read exactly, and a short second page is lost silently), and for unbuffered files whose first data line has one character. Text to float conversion and genfromtxt are modelled as described in DESIGN.md.

### C15 A failed save leaves the old file alone

Writer model on a file system cell; theorem describing the file content after the failed save.

Result: partial. False for every writer with columns of different lengths: the file is emptied.

### C16 Pages without rows keep their place

Reader model; theorem for pages with rows, witness with an empty page.

Result: partial. True exactly when no page is empty, with and without buffer; the place of every page in the columns is given; false for every file that starts with an empty page.

### C17 elegant conversion round trip

Coordinates over the reals, SDDS file as a lossless channel (justified by C01).

Result: partial. Through the bytes of the SDDS file, for any field of numbers, with the stored numbers exact doubles. Proved for 2 to 2^31-1 particles; a file with one particle or none cannot be read back (universal).

### C18 Species registered first wins, and nothing is lost

State machine of the registry; induction over histories.

Result: proved. Any sequence of read calls with any names, formats and outcomes.

### C19 Advertised formats can be read

Decision logic; theorem for all strings, genesis as the only exception.

Result: partial. Exact set of readable formats; genesis is advertised and never readable.

### C20 OPAL step selection

Model of key scanning and maximum; theorem for all key lists; witness for step 0.

Result: partial. Any file; group names that end in a digit are steps. Step 0 cannot be selected.

### C21 Genesis export is centred and complete

List model over the reals.

Result: proved. Text of the whole file; exact field of characteristic zero; number formatting is a parameter.

### C22 Flattening a beamline lists every element once per use in order

Tree model of nested beamlines; structural induction against an inductive specification.

Result: proved. All histories of calls, all nestings; recursion depth bounded by the number of beamlines.

### C23 Beamline length is additive

Induction on the tree.

Result: proved. All histories of calls; length raises exactly when an L is text.

### C24 Element edge position

Element identities are names in a store; theorem on first occurrence, witness for repeated elements.

Result: partial. edge is the position of the first use; false for the second use of every element with non-zero distance between uses.

### C25 One name, one element definition

State machine over a store of elements; invariant by induction over operations.

Result: partial. Proved for all histories without subline=True, with refinement to names plus one definition per name. With subline=True: the exact condition for every further call in every state, and every use is of the element of the object or of one that contains it.

### C26 Element parameter names are case insensitive

Association list model keyed by lower case; induction over updates.

Result: partial. True for []; .get and in fail for every spelling that is not lower case.

### C27 YAML save and load preserve the beamline

Model of the saved tree and of `load_beamline` with its shared `None` line; theorem for flat lines, witness for two sub-beamlines. Parameters called like the keys of the file or like arguments of the loader are excluded; every beamline with such a parameter is shown not to come back (PropsYamlKeys.lean).

Result: partial. Exact result of loading every file and exact condition for all beamlines, any nesting: one use of a sub-beamline or no elements in them, and one definition per name at the top and in the sub-beamlines. False for all beamlines with a parameter called name, type, self, element_name or element_type (yaml_keys_fails).

### C28 Transfer matrix of a beamline

Matrices over a ring; symbolic entries as functions of symbol values; theorem on order and on absence of substitution.

Result: partial. Order and table proved for all beamlines; own values never inserted: false for every beamline of drifts, true when all elements share the values put into the symbols.

### C29 RPN expressions evaluate correctly

Stack machine; induction over expression trees, numbers as tokens with a value function. The text that replaces pi is compared with the number.

Result: proved. Every expression tree, any spacing and quotes; a bad number anywhere in an expression, in front of it or behind it is a ValueError; an operation without operands is an IndexError; pi is within 3e-16 of the number, and the rounding of float().

### C30 Repetition factors expand to repeated elements

Text rewriting model on lists of characters; induction on items.

Result: partial. Any two texts for the same names (repeated names and groups, any nesting of lines) give the same result or the same exception after any number of rounds. False with white space in front of a factor and for groups that start with a repeated name: TypeError for every such line.

### C31 Parsed elegant line has the right element sequence

Model of the scanning loop with the store of lines; theorem for linear use, witness for shared lines. The exact theorem counts: every element added is shown at least once, and what is stored under a line is shown once more for every further use of that line; following the lines at the front of a line used twice leads to a line used twice that begins with an element.

Result: partial. The claim holds for exactly those lines whose expansion uses no line twice (sequence_iff, file_sequence_iff); otherwise there are too many elements. Names, types and parameters, any nesting, for lines used at most once. A line used k times gives its elements k*k times (universal statement). parse_acts gives the exact result for every use. file_sequence_partial goes from the lines of the file to the elements.

### C32 Comments in a lattice file are ignored

Model of the reverse loop on lists of lines; witness for a trailing comment; partial theorem otherwise.

Result: partial. Comment lines change nothing when a line with content follows, otherwise IndexError for every file. End-of-line comments change only white space at the end of lines, but without the newline a bare definition loses the last letter of its type (all such definitions).

### C33 Stored variables are substituted as whole names

Substring replacement model; witnesses, partial theorem for names that do not occur in other words.

Result: partial. Whole words are replaced and nothing else if no other word contains a name and the line does not start with one; false otherwise (universal statements). A definition that uses another variable is a ValueError.

### C34 Element definitions are parsed field by field

Model of `_find_parameters`; induction on the parameter list.

Result: partial. Any number of parameters, numbers as RPN expressions or text. False for text at the end of a line with a newline, for a bare type without newline and for a colon in a parameter (universal statements).

### C35 TRACE 3-D numbers are read correctly

Model of the regular expression as a scanner; theorem on signed decimals, witnesses for integers and exponents.

Result: partial. Element lines with any number of numerals. Read correctly exactly if there is no exponent and a negative number has digits behind the point (or is zero); the exact list of texts found is given for all numerals.

### C36 No element of a TRACE 3-D file is lost

Model of the slice; theorem that exactly the last entry is missing.

Result: partial. False for every file: Trace3d has no attribute `handlers`, so only files with one entry are read and give an empty beamline. With an empty table of handlers the last entry is lost.

### C37 Cavity phases are kept apart

Model of the merging loop; theorem for distinct drifts; theorem that all phases equal the last. The exact length is found by following the lengths through the loop: one merge loses the length the cavity has at that time, and sets the length of the next element to zero. Which beamlines are converted: `Trace/PropsCavityErr.lean`.

Result: partial. The total length shrinks by the own lengths of the cavities that do not directly follow a cavity (cavity_length_exact, so preserved iff these add up to zero); a beamline of a cavity and one drift counts the drift twice. Beamlines as the parser makes them are converted exactly if every cavity is followed by an element that is not a cavity; KeyError and IndexError otherwise (cavities_converted). Total length preserved for any number of cavities (elements used once, no own length of cavities, not exactly two elements). All cavities end with the phase of the last cavity (universal); correct only for equal phases.

### C38 Sirepo JSON import gives the right element sequence

Model of `generate_beamline` on ids with a store of lines; theorem for linear use; witnesses. The number of a line stands for its last definition; exact errors.

Result: partial. Exact elements of every imported line, exact condition for the import, and the exceptions. The claim is proved, with success of the import, for lattices in which no line uses a line twice, names in a line are unique and reversed lines have elements only. A line used n times in a line gives n*n copies; a line inside a reversed line is not reversed.

### C39 Warp lattice file defines each name once and before use

Model of the emitted lines; theorem on one definition per name and on definition before use; witness for the second call.

Result: partial. Exact text for the first call and for a writer in any state; later calls write no definitions; empty beamlines give no assignment. Errors characterised.

### C40 Magnet gradient conversion

Real formula; theorem for n = 1, witness for n = 2.

Result: partial. Over the reals. Correct for quadrupoles; for sextupoles exactly if the strength is 0 or the rigidity 0 or 1.

### C41 Kinematic round trip

Eight inputs over the reals; algebra with square roots.

Result: proved. Every input kind, all unit choices, physical inputs (spec Physical), exact reals.

### C42 Kinematic outputs are consistent

Same model.

Result: proved. All consistency equations at the first call.

### C43 Kinematic unit independence

Unit factors as reals with the consistency hypothesis on the constants; theorem per unit choice; witnesses for reported mass and input.

Result: partial. Values are unit independent and carry the right factor. The reported mass and input are right in exactly the cases given; false otherwise (universal).

### C44 Calling a Converter again gives the same answer

State of the outputs dictionary; induction over the number of calls for eV; witness for SI. Exact condition for a second call: `Kinematic/PropsCallsIff.lean`.

Result: partial. True for eV output; false for SI output: exact condition for a second call and exact values of every call (they are converted again each time).

### C45 Exactly one kinematic quantity

Decision logic over options.

Result: proved. Exact condition for __init__ to succeed.

### C46 Average and variance are the mathematical ones

Running mean/variance recursion over a field; induction against sum formulas.

Result: proved. Every non-empty array.

### C47 Statistics do not modify the data

Array store with a view on column 0; theorem giving the array after the call; witness. All three functions named are covered: each overwrites the first particle, and two calls agree exactly if it is at the mean (`statistics_overwrite`, `statistics_twice_iff`).

Result: partial. False: the first particle is overwritten by the mean. Exact effect, exact condition for purity, exact answer of the second call (smaller unless the first particle is at the mean).

### C48 Centering and normalising

Real lists.

Result: partial. Centering proved. Exact variance after normalising; it is one exactly if the first particle is at the mean.

### C49 Correlation matrix

Model of the double loop on the modified array.

Result: partial. Off-diagonal entries lack the contribution of the first particle: exact formula and exact condition. Exact covariances left by rm_correlations6d in terms of the rotation and the first particle.

### C50 Jacobi eigen solver

Matrices over the reals, `Fin 6`; invariant over rotations. For all symmetric matrices: `jacobi_symmetric_iff` says when the result is an eigen decomposition, by the sum of squares of the matrix held, which rotations keep and dropped entries lower. `jacobi_symmetric_fails` follows five sweeps of one matrix with exact rationals.

Result: partial. True for symmetric positive semidefinite input (every covariance matrix): orthogonality and similarity after any number of sweeps, eigen decomposition on return. For other symmetric matrices the vectors are orthonormal, and they are eigenvectors exactly if no entry is dropped by the test for negligible entries; a matrix for which one is dropped is given, so the claim is false there.

### C51 Significant figures

Reals with floor of log10; rounding of the mantissa.

Result: proved. Exact reals; the decimal logarithm is exact.

### C52 Sampling from a distribution

Lists over the reals; `searchsorted` as first index.

Result: proved. Any linearly ordered field; exact interval of numbers for every entry.

### C53 Twiss matched distributions

Real algebra on the 2x2 map; witness for the exceptional case. Exact condition for the second moments of the whole beam, and particles beyond the prepared ones.

Result: partial. Exact reals, unit moments at the start. Proved except for planes with negative alpha and gamma equal to beta, where the sign of alpha is lost.

### C54 Twiss parameters from moments

Real algebra.

Result: partial. True if the first particle is at the average (it is overwritten otherwise).

### C55 Twiss functions of a bunch stay consistent

State machine over assignments; witness for betay.

Result: partial. Standard: consistent after every history; reading betay gives betax. Nonlinear: gammay is computed with alphax.

### C56 KV beam lies on the energy shell

Real algebra with sin/cos.

Result: partial. For every root finder and all draws. Proved for equal beta functions, and for quiet starts without alpha; false for all other beta functions and alphas.

### C57 Quiet start is centred

Induction over the list of generated particles.

Result: partial. Exact condition: a positive multiple of four; the particle number zero raises ValueError.

### C58 Elliptic potential is well defined and symmetric

Real analysis: triangle inequality for the focal distances; parity.

Result: proved. Exact reals.

### C59 Nonlinear insert follows the drift beta function

Trigonometric identities over the reals.

Result: proved. Exact reals.

### C60 Phase advance between two points

`Complex.arg` as arctan2; theorem on rotation.

Result: partial. Clockwise proved; counterclockwise proved except for equal directions, where 2 pi is returned instead of 0.

### C61 Tune from FFT

Discrete Fourier transform as a finite sum; root of unity sums. The turns chosen by negative numbers.

Result: partial. Exact reals, exact DFT. Range proved; pure tones proved for every offset below half the amplitude; false with an offset of at least half the amplitude and for arrays of shape (n, 1).

### C62 Decoherence closed form

Interval integrals in Mathlib. Turn zero gives the offset; for negative turns the integral of any order is zero.

Result: partial. Exact reals and integrals. Any order and first order (coefficient not 0) proved; second order proved for a positive coefficient, NaN for a negative one.

### C63 SDDS symbol formatting

State machine over characters; invariant on brace count. For all strings the balance is computed by a counter along the loop (PropsNested.lean).

Result: partial. Exact for all strings. False for symbols with unbalanced braces of their own; proved for symbols without braces.

### C64 Magnet profile covers the beamline

List recursion. Overlap of the first magnet with the axis origin (PropsOverlap.lean).

Result: partial. Exact reals. False for lines that begin before zero with a magnet; exact condition.

### C65 Current profile integrates to the charge

Histogram model; induction on samples.

Result: proved. Exact reals; also for equal times.

### C66 Scatter plot axes contain all points

Order theory on lists.

Result: proved. Exact reals.

### C67 Element matrices describe the motion

SymPy entries as syntax trees with complex values; derivative, addition theorems and block determinant of the table entries; induction over the product.

Result: proved. Complex symbols for the symplectic form, real ones for the equations of motion; K1 = 0 in a quadrupole is nan in SymPy and excluded.

### C68 Comments of TRACE files are ignored

Induction over the lines from the end; exact result.

Result: partial. Exact result of cleaning for all files that do not end with a comment line; all others raise IndexError.

### C69 The frequency of a TraceWin file is used

Invariant over the lines: the dictionary of global parameters never has the key.

Result: partial. Exact result of each handler when a frequency is set. False for every file that is read: no element gets a frequency from a FREQ line (the line becomes an element of its own).

### C70 Element names of TraceWin files are distinct

Invariant over the lines: counter against names in use.

Result: proved. 

### C71 A DTL cell keeps its length

Sum of lengths over the reals of the elements added by one line.

Result: proved. Any list of lines; for any additive commutative group of numbers.

### C72 Warp gradients belong to the central momentum

Real algebra; invariant that elements used twice are converted once.

Result: partial. False for every beam: the gradient is that of the total energy P. For momenta of at least the mass.

### C73 Supported element types are converted

Case analysis over the table of types; error characterisation of the writer.

Result: partial. True for the other types; false for every lattice with an element of one of the six types.

### C74 Writing without a name writes the first registered species

Dictionary model; exact condition. Exact condition by the lookup of the default name (PropsDefault.lean).

Result: partial. True exactly if the first species has the default name or an equal one has it.

### C75 OPAL total charge

Exact result of the reader for a group that holds a particle list.

Result: partial. True unless TotalCharge is zero; then AssertionError or the other attribute.

### C76 Momentum conventions of imported particles

Characterisation of every file that is read, then real algebra: exact condition for consistent momenta.

Result: partial. Exact condition: true for a particle only if it has no transverse momentum.

### C77 OPAL text export is complete

Split of the written text at newlines; induction over particles.

Result: proved. Number formatting is a parameter.

### C78 The kind of particle survives the elegant round trip

Composition with the SDDS round trip theorem.

Result: partial. Electrons only; all other species come back as electrons.

### C79 Arguments reach the distribution function

Exact arguments for every kind of value.

Result: partial. True except for the number zero.

### C80 Shape and range of samples

Every number gives one index of the table; bounds of the grid.

Result: partial. Numeric inversion only; halton gives an array of shape (n, 1).

### C81 elegant files without a charge

Result of the reader under hypotheses on the page that was read.

Result: proved. One page, at least two particles.

### C82 New random distributions

Induction over the drawn numbers.

Result: partial. Uniform: proved. Gaussian: bound for factors of at least one; the cut is at the square root of the factor. Unknown kinds raise AttributeError.

### C83 Cleaning of a distribution

The matrix of the first step is positive semidefinite, so the rotation is orthogonal; exact averages after each step. Exact variances after the cleaning.

Result: partial. Exact condition: averages are zero iff the first particle was at the average; then all moments are right.

### C84 Relativistic factors of the design particle

Real algebra.

Result: proved. Exact reals.

### C85 Offsets and factors of one component

Linearity of averages and covariances.

Result: proved. Exact reals.

### C86 Arguments of set_transverse_coordinates are stored

Composition of setters; universal negation for the wrong attribute.

Result: partial. True without betay and cutoff; false with them (universal).

### C87 Beta functions are positive

Invariant over histories; witnesses. Histories: every setter stores a value or keeps the old one, so the last stored value remains (PropsHistory.lean).

Result: partial. True for positive constructor arguments and assignments that do not raise. Exact values after any history of assignments with errors caught.

### C88 KV beam has the planar emittance that was asked for

Average of the shell equation.

Result: partial. False: every matched KV bunch has twice the emittance.

### C89 Gaussian bunch is matched

Columns as scaled lists of draws; bilinearity of moments. Exactly matched if emittance or alpha vanishes in each plane (PropsPlanes.lean).

Result: partial. Drawn numbers with unit variance and no correlation. True for alpha zero, otherwise false.

### C90 Energies of nonlinear bunches

Induction over the rejection loops; root finder and draws are parameters. The same for the horizontal beta function in both planes. The difference of the energies with the two beta functions is factored (PropsPlanes.lean).

Result: partial. False for different beta functions, exactly. Proved for equal beta functions and no quiet start; for different ones with the horizontal function in both planes, which is the one the code uses, and for quiet starts with alpha zero. Energies above 1e10 not modelled.

### C91 Emittances given to a nonlinear bunch are used

Both runs are equal by case analysis.

Result: partial. True for KV; for the other two the arguments have no influence.

### C92 Quiet start of a nonlinear bunch

Constructor ignores the argument.

Result: partial. False for all arguments.

### C93 Columns are written independently

Invariant over lists of calls.

Result: proved. Standard bunches; any history of calls, also when they raise.

### C94 Phase advance of the nonlinear insert

Antiderivative of one over beta (arctan); cases at one half.

Result: partial. True below one half; false above (universal).

### C95 Aperture parameter of the insert and its MAD-X elements

Induction over the slices; setter has no effect.

Result: partial. Elements proved; the assignment never has an effect.

### C96 Centroids up to turn N

Length of the list.

Result: partial. False for all N: N results, turns 0 to N-1.

### C97 Centroid stays within the offset

Norm bound of the integral; closed form.

Result: proved. Exact reals and integrals.

### C98 Strength and aperture of a nonlinear bunch

Invariant over histories of assignments.

Result: partial. Histories proved; the constructor accepts any values and the setters accept zero.

### C99 Total emittance of a bunch

Invariant over histories; the call keeps the old total.

Result: partial. True after construction and Twiss assignments; exact condition after set_transverse_coordinates.

### C100 One formula per symbol

Induction over the characters; no step adds a dollar sign.

Result: proved. 

### C101 Control words of a symbol

Induction over the characters with the state of a scanner for control words. Exactly, by counting the letters of all control words (PropsGlued.lean).

Result: partial. True unless a roman letter follows a Greek or special one; then false (universal).

### C102 Colours of the magnet profile

Induction over the rows; finite table of types.

Result: partial. Colours proved; lines true for scale one, false for others.

### C103 Histogram counts

Floor of the scaled datum gives the bin; double counting.

Result: proved. Exact reals.

### C104 Charge of the longitudinal plot

Cases of the charge argument.

Result: partial. Given charge and charge zero proved; a file without charge raises ValueError.

### C105 Axis labels are kept

Truncation to five characters is the identity exactly for short labels. Exact condition (PropsLevels.lean).

Result: partial. Exactly the labels of at most five characters that do not end with NUL are read back.

### C106 Contour levels cover the field

Rounding error below 1/2000; inequalities. Exact condition for the cover (PropsLevels.lean).

Result: partial. Exact reals. Proved for fields with values of at least 0.011 in magnitude that are not constant; false for small and constant ones. Exact condition for any number of levels and multiplier.

### C107 Fields of ASCII files have the names of the header

Invariant of the page loop: every array carries the validated names.

Result: partial. Proved for names without white space and quotes other than return, file and print; false for the others. The behaviour of genfromtxt is an assumption.

### C108 An ASCII file that was saved is read back

The file equals the text of one page; C14 for that page. Failures: first step of the page loop.

Result: partial. Proved for at least one row, and doubles if there is a single column; without buffer the first data line needs more than one character. False (universally) in the other cases. The text of floats and genfromtxt are assumptions stated in the theorems and in DESIGN.md.

### C109 The last newline of an ASCII file does not matter

Simulation: the lines of both files agree up to the end of the last one, which genfromtxt strips; invariant of the page loop.

Result: proved. For the modelled genfromtxt and line splitting (see DESIGN.md).

### C110 Ragged ASCII tables are refused

Induction over the pages, then over the rows of the damaged one.

Result: partial. Proved for all ragged tables but those whose rows all have the same larger number of words, for which it is false (universal, two columns or more). With buffer, behind other pages, only if as many lines as a page has rows follow it; a short ragged page behind a longer one is lost silently (ascii_buffered_lost).

### C111 Density pictures count particles

Sorted edges: the number of edges below a datum is its bin plus one; double counting.

Result: proved. Exact reals; np.histogram2d as described in Plot/Density.lean.

### C112 Projections agree with the picture

Bins of 256 in pairs are bins of 128; sums of counts; scaling of ranges.

Result: proved. Exact reals. For the current curve the charge is given as a number.

### C113 The four phase space pictures show what their labels say

C111 for four lists of points; the average is zero iff the sum is.

Result: partial. Proved unless the momenta add up to zero; then (always, for a bunch with particles) ValueError.

### C114 Particle number and array of a phase space agree

Invariant over histories of calls.

Result: partial. Proved for histories in which every array set has the stored number of particles and no read fails its check; false (universally) for the other steps.

### C115 A phase space that was written is read back

Induction over the calls in between: a file not written to stays.

Result: proved. np.savez and np.load are assumed to lose nothing; the file system is a map from names to arrays.

### C116 Peak current

Variance after overwriting the first particle in closed form.

Result: partial. The formula is proved for every bunch; asking twice is proved if the first particle is at the mean and false otherwise (universal: the second answer is larger).

### C117 Coordinate ranges enclose the bunch

Induction over the fold; average between the bounds.

Result: proved. Exact reals.

### C118 Sampling by interpolation inverts the distribution

Strictly increasing cumulative sums; laws of the spline at nodes and lines. The cumulative distribution has no repeated value iff no weight after the first vanishes (PropsInterpIff.lean).

Result: partial. For every spline that goes through its nodes and reproduces straight lines (scipy interp1d is assumed to). Proved at the values of the distribution; false for numbers below the first value (exact formula for a uniform density) and for distributions with zeros.

### C119 Namelists that carry no data change nothing

Simulation between the two headers, line by line; AttributeError for array entries.

Result: partial. Proved for description, include and associate lines at any place; false (universally) for array lines.

### C120 Which headers are accepted

Both directions by cases on the attributes of each entry.

Result: proved. Exact condition for well-formed headers, binary and ASCII. The two further theorems spell out the surprising refusals (a string column with field_length, a column type outside the six).

### C121 Reading twice gives the same

The page loop commutes with putting pages in front (induction over the fuel).

Result: partial. Exact effect of earlier calls proved for all readers and files, binary and ASCII: their pages stay in front. The claim as stated is false for every file with a page.

### C122 The constants of rsconst

Evaluation is stable under assignments of new names; values by substitution.

Result: partial. The import fails for all values of the constants. constants_partial: any order of the assignments that can be executed gives the right values; constants_order: there is such an order. Exact reals.

### C123 A file that is cut off is refused

Every read that succeeds in the whole file succeeds in the cut file if it ends before the cut, and raises otherwise; induction over the pages.

Result: partial. False as stated. Buffered reading of all pages: proved for every cut within a page. Selected pages: the exact condition, so false if the broken page is passed over by its size. Cuts within the header: the exact outcome for every place (an exception, no end, or an empty file). Without buffer: the exact outcome for every cut (one byte of a page is ignored, cuts within parameters or string columns are refused, within columns of numbers the complete rows are given). A file without columns and pages with a white space byte in second place are not covered without buffer.

### C124 Quantities of a beamline profile

mapM over the quantities succeeds iff each does; entry i of the result comes from quantity i.

Result: proved. Exact: what is drawn whenever the function returns, and when it returns. Columns of one page have equal length (SDDS). Exact reals; matplotlib calls are recorded, not executed.

### C125 Particles shown by scatter_contour

Evaluation of the flags; equal steps increase iff the last level is above the threshold; cells of the histogram as in C112.

Result: partial. Exact for arrays of particles: what is shown, and when contours are drawn. False (universally) for axis ranges and for at most 1 (combo: 8) particles; the scale named by the plot type is never set for contour and combo plots. The outline is a parameter; matplotlib before 3.5.

### C126 Hamiltonian and printed Twiss parameters of a bunch

Ring identities in sqrt(beta); the potential of C61 to C63 at the generated coordinates; invariant of the setters.

Result: partial. Exact reals. The elliptic potential has no value at its two singular points and raises for c = 0. KV bunches: equal betas, no quiet start. For the integrable bunch the printed parameters are consistent after an assignment exactly if both alphas have the same square.

### C127 Fields and accessors of SDDS data

Invariant of the page loop: every array read for a group of keys has the names and types of the group; merging keeps them.

Result: partial. Records: all binary files and all calls of read, without fields named record_length, for which the claim is false (universally). Accessors and data type of columns: binary and ASCII, exact.

### C128 Helpers of the SDDS module

The slice has the length of the key and starts with t; induction over the fuel for the generators.

Result: partial. _return_type is wrong for every text that names a type. get_entry_from_parameters: exact for arrays of one field; false for later fields. Generator: exact, and the page loop with generators equals the one of C06.

### C129 Entries of a TRACE 3-D file

Model of the namelist text, the entry numbers and the element table; case analysis over the type numbers, induction over the entries.

Result: partial. Exact elements for all files of well formed entries with distinct names, with an empty table of handlers. Missing: the last entry is lost, and without the table every file fails (C36).

### C130 Bends take over their edges

Model of handle_bends with positions, shared element objects and the list of edges; induction over the bends and over the edges that are taken out.

Result: partial. Exact condition of acceptance, exact exceptions and exact result for lines of distinct elements; false for shared edges and for a bend at the start.

### C131 set_beamline chooses the line

Model of the parser object with its state (title, chosen line, lines already joined) and a list of calls; invariant that a joined file stays joined, so the title and the line are fixed by the first call.

Result: partial. For the first call and names in lower case (lines used at most once, as in C31). After the first call the chosen name is ignored: the first line is parsed again, or AssertionError. A name with a capital letter is never found. The beamline keeps the title given at the beginning, for all histories.

### C132 The elegant parser can be called again

Same model as C131; each further call appends the elements of the same line, induction over the number of calls.

Result: partial. False for every line of elements: k further calls give the elements k + 1 times. session_again_exact says for all lines what the calls give. Only the first call is right (new_call with C31).

### C133 Reading a file always ends

Second model of the page loop with integers for row counts and positions (`Sdds/Counts.lean`), which agrees with the first one wherever that one has a result. Measures that grow with every page; pigeonhole principle for the places where pages start.

Result: partial. Proved for all ASCII files, for all calls with a list of pages, for all unbuffered binary files, and for buffered binary files without negative row counts. A buffered read() never ends exactly if two pages start at the same place; negative_rows_fails gives such files for every header with numeric columns whose row size divides the size of the parameters.

### C134 Elegant files with several pages can be read

Evaluation of the reader for an array of two dimensions. Pages of one row: squeezing a list of singletons gives the list, so each column is read page by page.

Result: partial. False for all files with two or more pages of two or more rows. Proved for files whose pages have one row each: the particles of all pages are read in order, and the charge is the array of the charges of the pages (elegant_single_rows_partial); the wider model used there gives the same as the other one for single charges (readElegantAll_one).

### C135 An OPAL step needs one value per particle in every dataset

Inversion of the six columns; the six lists determine the particles and are determined by them.

Result: partial. Exactly the steps whose datasets have one value per particle or a single value are read, with exactly these values. The other direction of the claim is false for single values, which are repeated.

### C136 The text of converted lattices

The converted heap is the image of the old one by a function that keeps names; the writer theorem of C39 for such images; inversion of the definitions.

Result: proved. Over the reals. Exact text and exact condition of success.

### C137 The command line of the converter

Model of the parts of argparse that are used (`Kinematic/CommandLine.lean`). Tokens of every written form; induction over the settings with the invariant that the namespace holds the last value of each argument. For all argument lists: invariants of the loop over the tokens. Abbreviations of two names in `PropsAbbrev.lean`.

Result: partial. Proved for all lists of settings in which values stand apart, behind an equal sign or directly behind a name of one letter, with full or abbreviated names. Whatever is accepted gives the result of the constructor (command_same, all argument lists). Beginnings of two long names are never accepted (command_ambiguous). False for negative numbers with exponent as an argument of their own and for values attached to -bg and -KE, which are never accepted. `float` is a parameter; the argument -- and text attached to -h are not modelled.

### C138 Extent of nonlinear bunches

Induction over the loops with the bound on trial positions; the root finder is a function with the one property that it returns roots.

Result: proved. Exact reals; any root finder that returns roots. Energies above 1e10 and cutoffs from 1e10 are not modelled.

### C139 Kinematic results stay physical in double precision

The methods of Converter with every operation rounded (`Kinematic/Rounded.lean`). A rounding is any odd function to a nearest number with 53 bits and any exponent (`Py/Rounding.lean`). Proof: rounding is monotone and keeps 0, 1, c and the mass; the square root of a rounded square is the number itself, so n / sqrt(1 + n^2) is at most 1.

Result: proved. Any rounding to nearest with 53 bits; no overflow or underflow; x**2 is a rounded product. Before the conversion of units.

### C140 Kinematics of fast particles in double precision

Same model. Error bounds step by step (`Py/Near.lean`); for the failure 1 + n^2 is rounded to n^2.

Result: partial. Up to 2^22 masses: the velocity to 2^-49, the others to 2^-48 times the square of gamma. Up to 2^25 masses all results are finite and the velocity is below c; from 2^27 masses on every result but the velocity is infinite. In between only C139 is proved.

### C141 Kinetic energies of slow particles in double precision

Same model. Error bounds; for the failure 1 + k and 1 - b^2 are rounded to 1.

Result: partial. Velocity and energy come back to 2^-51, beta and gamma exactly, kinetic energies to 2^-50 times the whole energy (given momenta: C140). Every kinetic energy up to 2^-54 masses comes back as zero, and every velocity up to 2^-28 c has kinetic energy zero.

### C142 Variances in double precision

The loop of calc_variance6d with every operation rounded (`Stats6d/Rounded.lean`). The new average is between the old one and the new value because rounding is monotone, so each term of the variance is a product of numbers of the same sign.

Result: proved. Any rounding to nearest with 53 bits; no overflow or underflow.

### C143 Phase advance in double precision

phase_advance with every operation rounded (`Phases/Rounded.lean`).

Result: partial. The closed interval holds for all angles; the end is reached for all angles that differ by less than 2^-54 pi, the second being larger.

### C144 Numeric sampling in double precision

_calculate_cdf with every operation rounded and the pairwise summation of numpy (`Sample/Rounded.lean`). Failure: one weight 1 and small weights that vanish in the loop but not in the pairwise sum.

Result: partial. Exact condition. True for up to 7 grid points; false for every grid of 8 different points or more and a positive distribution, every rounding. np.sum is modelled as the pairwise sum of numpy.

### C145 ASCII files without row counts

Layout of files without counts (`PropsFree.lean`) on the model of `Ascii.lean`. Unbuffered: induction over the pages. Failure with buffer: the position moves by the counted and by the read rows, so it runs past the file before all pages are read (counting).

Result: partial. True without buffer, and with buffer for one page or pages of one row (all pages with the same number of rows, at least one parameter and one column). False for all buffered files with two or more pages of two or more rows; for comments among the rows without buffer; and for passing over the only page of a buffered file.

### C146 Descriptions of parameters and columns

The last element with a name, by filtering (`PropsLookup.lean`).

Result: proved. Headers on one line per namelist (Doc.Ok).

### C147 Parameters and columns a writer takes

Induction over the calls (`PropsCreate.lean`).

Result: partial. Exact conditions and all histories proved. Never true for the documented type character and for fixed values that Python takes for false.

### C148 Binary files that say no_row_counts

The same reader without the entry has the same functions except for the row count (`PropsUncounted.lean`). Without buffer the lines are split as `fileLines` does (`PropsUncountedLines.lean`).

Result: partial. Exact result of read([0]) for all pages with the first zero byte within as many bytes as there are rows; TypeError if there is none. Without buffer the exact result for all pages with at most as many lines before the first blank one as there are rows.

### C149 Negative row counts

The model with integers (`Counts.lean`): a negative count takes what is left (`PropsNegative.lean`).

Result: partial. Never true: the exact results of read([0]) are proved, and of an unbuffered read() for numbers; passing over such a page raises OSError if the place is before the start of the file. Buffered counts of -1 to -2^31; unbuffered counts down to -57088, where the page is always seen.

### C150 Nonlinear insert in double precision

Model with every operation rounded (`Nonlinear/Rounded.lean`); bounds of the focal length and of the expression below the root by monotone rounding and gaps between numbers (`PropsRounded.lean`), irrationality of pi for multiples of one half (`PropsHalves.lean`), positions of the slices (`PropsSlices.lean`).

Result: partial. True for tangents between 2^-26 and 2^25 in magnitude and up to 2^50 slices, false below 2^-28 and above 2^28; between these nothing is proved. insert_halves_fails: phases k/2 with 0 < |k| <= 2^20 and any tangent right to one half of itself. No overflow or underflow.

### C151 Design particle in double precision

Model with every operation rounded (`Ptcls/RoundedDesign.lean`), relative errors (`Py/Near.lean`) and monotone rounding (`PropsDesign.lean`).

Result: proved. Overflow and underflow are not modelled. design_fast: beta0 is exactly 1 from 2^27 masses on and below 1 up to 2^25 masses.

### C152 Twiss transformation in double precision

Model with every operation rounded (`Ptcls/RoundedTwiss.lean`); which numbers the roots are taken of (`LemmasRoundedTwiss.lean`), error of the difference of squares, gaps between numbers (`PropsRoundedTwiss.lean`). Particles: products and sums with counted roundings (`Ptcls/PropsRoundedMap.lean`).

Result: partial. True with a relative error of 2^-50 (gamma + beta)^2 if gamma + beta is at most 2^24, false from 2^28 on; between these nothing is proved. Particles are right to five roundings of each term for given coefficients; the error of the angle is not bounded. No overflow or underflow.

### C153 Magnet profile in double precision

Model with every operation rounded (`Plot/RoundedProfile.lean`); exact differences and ties (`Py/TiesEven.lean`), statements in `Plot/PropsRoundedProfile.lean`.

Result: partial. Edges and widths for all lines and scales that are not negative; overlaps are at most 2^-52 of the width. No overlap if magnets begin at zero or end before twice their start (Sterbenz); false for every longer magnet between half and whole units of the last place if ties go to even numbers. No overflow or underflow.

### C154 Twiss parameters from moments in double precision

Model with every operation rounded (`Ptcls/RoundedMoments.lean`); error of the difference of products with `Near`, products rounded to the same number (`PropsRoundedMoments.lean`).

Result: partial. True up to a relative error of 2^-48 (1 + alpha^2) if 1 + alpha^2 is at most 2^40. Exact condition for the exception; false for a family of beams of 1 + alpha^2 about 2^53. The errors of the moments themselves are not bounded here. No overflow or underflow.

### C155 Sampling by interpolation in double precision

Model of C144 with the interpolation of C118; strict growth of the table, error of sums in order, absorbed weights (`Sample/PropsRoundedInterp.lean`).

Result: partial. Samples are given if every weight is at least 2^-49 of the sum of the weights before it; ValueError for every distribution with a weight below 2^-55 of that sum; between these nothing is proved. Up to 2^52 grid points. What interp1d gives is not modelled.

### C156 Elliptic potential in double precision

The radii are at least the distances from the poles, the first coordinate is at least one by the spacing of numbers near one and two, the second is below one by the error of the radii (`Bunch/LemmasRoundedPotential.lean`, `Bunch/PropsRoundedPotential.lean`).

Result: partial. A number for every point with |x| at most c(1 - 2^-44) and |y| at most 2^39 c; nan at 2^k(1 - 2^-53) for c = 2^k and at 2^49 points of the axis beyond 3c. Nothing is proved for |x| above c in general. Accuracy: the potential from the elliptic part to 2^-50 of the magnitudes (potential_formula), the elliptic part from the elliptic coordinates to 2^-48 for u^2 at least 2 and v^2 at most 1/2 (elliptic_formula); not the coordinates themselves. arccosh and arccos are parameters; overflow is not modelled.

### C157 Accuracy of the variances in double precision

Both loops (with and without rounding) step by step, with error bounds that grow with the number of particles (`Stats6d/PropsRoundedAccuracy.lean`).

Result: partial. Absolute error of the variance at most n 2^-48 M^2 and of the average at most n 2^-50 M for n up to 2^47 particles of size up to M. For every two particles that are neighbours (the first one even) the variance is twice the exact one. No overflow or underflow.

### C158 What edit_element changes

Fold of assignments as the last value per parameter; entries of the sequence with the name (`Lattice/PropsEdit.lean`).

Result: partial. Exact result for names and positions. Elements used in sub-beamlines only never change; with the name of a sub-beamline the elements before it change and AttributeError is raised. The printed warning is not modelled.

### C159 Averages in double precision

Sums as trees: value, sum, sum of absolute values and number of roundings of each leaf; pairwise summation halves the count (`Stats6d/PropsRoundedAverage.lean`).

Result: partial. Error bound for all arrays; range for one and two particles; for three equal particles with 53 bits ending in 10 above 4/3 of a power of two the average is out of the range for every rounding to nearest. Overflow and subnormal numbers are not modelled; rows are assumed to lie in one piece of memory.

### C160 Lengths and positions in double precision

The same model as C23 and C24 over doubles with rounded addition; sums as trees of C159; order by absorption (`Lattice/PropsRounded.lean`).

Result: partial. The model of C23 and C24 with rounded addition. Whole numbers as lengths are taken as doubles; overflow is not modelled.

### C161 Histograms and the current in double precision

Relative errors of the guess and absolute errors of the edges below 1/8 of a bin, so that one correction is enough; shares of the charge (`Plot/PropsRoundedHistogram.lean`).

Result: partial. Both ways of numpy to guess the bin. Total and middle points for all data; counts and current when the number of bins times the size of the data is at most 2^50 times the spread; between that and neighbouring numbers nothing is said. Equal data, overflow and subnormal numbers are not covered.

### C162 Correlations in double precision

Averages of C159, products and sums with counted roundings, variance and overwritten particle of C157 (`Stats6d/PropsRoundedCorrelations.lean`).

Result: partial. Symmetry, diagonal, error bound for the sum over all particles but the first; two opposite particles give half the covariance. Overflow and subnormal numbers are not modelled.

### C163 Conversions for elegant and genesis in double precision

Integer mantissas: the rounded quotient is a whole number of last places, and the product is within half a last place or not (`Switch/PropsRounded.lean`).

Result: partial. Error bound of the round trip, values that are recovered and values that are changed, a second round trip is exact, error bound of the genesis times. Overflow and subnormal numbers are not modelled; the columns of the file are doubles (C17).

### C164 Normalising in double precision

Relative errors through root, reciprocal and product, variance bound of C157 (`Stats6d/PropsRoundedNormalize.lean`).

Result: partial. Division by the root of the computed variance up to four roundings, by the rms up to the error of C157, order of the particles; two opposite particles do not get unit rms. Zero variances (inf and nan), overflow and subnormal numbers are not modelled.

### C165 Saved scatter plots show the plotted data

Invariant of pyplot's list of open figures: numbers differ, and figures of numbers the object has not used yet are empty.

Result: partial. Proved for all programs in which one object plots (picture_own_partial) and for programs with any number of objects that save every plot at once (picture_each). False for several objects otherwise: the first plots of two objects are drawn on top of each other (picture_two_fails); the exact condition is picture_iff. A second picture is empty (save_twice). clear_plots closes the figure of the last plot only (clear_last, clear_two_fails). Over the reals; programs up to the first exception.

### C166 KV bunches in double precision

Groups of four stay aligned in the eight sums and halves of np.sum, where they cancel because rounding is odd; relative errors of nonnegative terms for the invariants.

Result: partial. Sums of quiet starts are exactly zero, one after the other and as np.sum adds (eight sums and halves), for all draws (rounded_quiet). Bounds for all draws (rounded_extent). Invariants right to 2^-46 (1 + |alpha|) for |alpha| up to 2^40; as in exact arithmetic not for different beta functions nor for quiet starts with alpha (C56). cos and sin are parameters with squares adding up to 1 up to 2^-51; no overflow or underflow.

### C167 Uniform and Gaussian distributions in double precision

Comparing with a number that is a float is exact after rounding; relative errors of the sum of squares; three drawn numbers found by search whose roundings are all downwards.

Result: partial. Gaussian part true as stated. Uniform part: coordinates are exact and squares add up to less than 1 + 2^-51; not always less than 1: for each particle number there are drawn numbers for which no particle is inside (rounded_uniform_fails). Same particles as in exact arithmetic unless a sum of squares is within 2^-51 of 1, or a square in the last 2^-53 below the limit. Before cleaning; x**2 is taken as x * x; no overflow or underflow.

### C168 Significant figures in double precision

Relative errors of the three rounded operations around the decimal number; numbers whose products round the other way for the false part; for asking again the multiplier is within half a unit of the same whole number.

Result: partial. Next double: true for numbers from 1 to 10 and for one figure from 1 to below 10^22, false for three figures of every number from 114.51 to 115.49 (114.99999999999999) and one figure of every number from 0.000251 to 0.000349; for all numbers right to 2^-50. Twice: proved up to 15 figures when the exponent found again is the same or belongs to the next power of ten. What log10 and negative powers of ten give are parameters; the floor of log10 is assumed right for the argument. No overflow or underflow.

### C169 Nonlinear bunches in double precision

If the denominator of the elliptic part rounds to zero both squares round to one and the numerator is zero. The loops are followed by induction as in C166, with what they give described by accepted trials and their energies.

Result: partial. For all three distributions. Sums are exactly zero one after the other and as np.sum adds. y is bounded by what the root finder gave. That every particle lies below its energy is proved without quiet start, with the formula of its momentum; the energies are the emittance (KV), the emittance times the root of a drawn number (waterbag) and at most the emittance times the cutoff (Gaussian). The invariants of a particle add up to twice its energy less the elliptic part, to 2^-45 (1 + |alpha|), for |alpha| up to 2^40 without quiet start and for alpha zero with it (nonlinear_shell); quiet starts with alpha do not keep it (C56). No overflow or underflow; cos, sin, log, arccosh, arccos and the root finder are parameters.

### C170 Contour levels in double precision

Errors of the rounding to three digits and of one level, by the relative errors of the operations; the order of the levels from the error of each. The range is symmetric in both branches because the rounded product is monotone and odd.

Result: partial. Levels increase strictly and are equidistant to 2^-50 of the bound for fields with a negative value or with values that differ after the multiplication. Cover: default arguments and a value of at least 0.011 in magnitude. False for every field up to 1/2201 in magnitude and every field without negative values whose extremes round to the same product, which for the default multiplier happens for different neighbouring doubles (example). No overflow or underflow.

### C171 Offsets and factors of one component in double precision

Relative error of one rounding per particle and its monotonicity; Sterbenz lemma for close values, gap between neighbouring floats for large offsets.

Result: partial. Other components unchanged, one rounding per particle, order and average kept, for all offsets. The spread is kept exactly when a number within a factor of two of every value is taken off; false when the offset is above 2^54 times every value: all particles coincide and taking it off again gives zeros. Between the two ranges the bounds per particle, for the offset and for taking it off again, are proved. Factors of plus or minus a power of two scale the moments exactly and can be undone. Other indices are refused. No overflow or underflow.

### C172 Magnet gradients in double precision

Relative errors through the operations for the accuracy. For the sign, the gap between neighbouring floats: a quotient of different floats is more than half a unit away from one, so that rounding keeps the side.

Result: partial. Accuracy of 2^-49 for quadrupoles and 2^-48 for sextupoles (of the strength times the square of the rigidity) for energies of at least twice the mass, 2^-31 and 2^-30 from a part of 2^-20 above the mass on; closer to the mass only the sign is proved. False for every energy below the mass, which lattice.py:54-64 passes for every beam with a momentum below the mass. Orders 1 and 2 only. No overflow or underflow.

### C173 Lengths of TraceWin beamlines in double precision

The model of the parser takes its operations from a record; the list of elements of any file (C71) is instantiated with rounded operations and the error of each line added up.

Result: partial. Whole files, to 2^-50 of the lengths in the lines. Cavity not negative when the gap is at least 2^-50 of the lengths; false without a gap: 19 mm with quadrupoles of 12 mm and 7 mm gives -2^-60 m with every rounding to nearest. float of the texts is any function. The sum of the lengths is exact; summing in double precision is C160. No overflow or underflow.

### C174 The centroid in double precision

Relative errors of the phases; the bracket is a difference of two sines, bounded by the denominator; the closed form for the rounded phases is the average for a slightly different tune and coefficient, and averages with close phases are close.

Result: partial. To 2^-47 of the offset plus 2^-50 of the phases 2 pi n (|nu0| + |mu0|) of the turn; the bound by the offset holds for every turn without the phases. False for a coefficient of zero, which divides by zero. First order only. Turn numbers below 2^53. No overflow or underflow.

### C175 Elements of TRACE 3-D files in double precision

Relative errors of the conversions and of the product; the file theorem C129 for the record of rounded operations. For all lines: invariant of the loops, since every bend is standardised after each line.

Result: partial. Every number to 7 * 2^-53. Missing: as for C129 the class has no table of handlers and the last entry is lost. rounded_arc: whatever the lines are, every bend has a non-negative length, |r * angle| of its own parameters to one rounding. No overflow or underflow.

### C176 Phase space pictures in double precision

Error of the average from C159; subtraction and division with relative errors; monotone roundings for the order. Counterexamples from C159.

Result: partial. Millimetres and milliradians to one rounding, picoseconds to 2^-44 of the largest time, deviations to 2^-44 of one plus the deviation; order in every picture. False for three particles of the same momentum of 53 bits ending in 10 above 4/3 of a power of two: all have the same deviation, not zero, for every rounding. The edges of the cells in double precision are not modelled here. No overflow or underflow.

### C177 The third Twiss parameter in double precision

Relative errors; the moments with the errors of C154. One is absorbed by numbers from 2^54 on.

Result: partial. To 2^-51 (1 + alpha^2) for all alpha and beta, gamma with the sign of beta; false for every alpha of 26 bits from 2^27 on and powers of two as beta: exactly zero. Moments to a relative error of K 2^-45, K a bound of 1 + alpha^2 up to 2^40. A beta of zero raises ZeroDivisionError for Python floats; numpy floats give inf. No overflow or underflow.

### C178 The integrand of the centroid in double precision

The loop by induction with a count of roundings; sine and cosine are Lipschitz; relative errors for the factors.

Result: partial. The bound to a factor 1 + 2^-48; the distance from the exact integrand with 2^-50 of the phase of the tune and (1 + 2^-53)^(7 k + 8) - 1 of the sizes of the k terms of the advance. Sums with nonnegative weights over it, as quad forms them, are bounded and accurate in the same way (rounded_quadrature); quad itself is not modelled; no overflow or underflow.

### C179 Arrays of amplitudes

The loop by induction for arrays that are maps of the amplitudes; cases of the comparison.

Result: partial. Exact result for all arrays. An entry at 2 pi n gives zero in an array, not as a float. An array of one entry gives a number if it lies beyond 2 pi n or there are no coefficients. The same in double precision with the rounded cutoff (rounded_array), given the same functions for numbers and arrays. Empty arrays as in NumPy from 2.2 on.

## Axioms per theorem

Output of `#print axioms` for every theorem named in the manifest.

Axioms: propext

- `Verif.Lattice.edit_nested_fails`
- `Verif.Lattice.param_spelling`
- `Verif.Lattice.unfold_replace`
- `Verif.Plot.command_refuses`
- `Verif.Plot.control_words_fails`
- `Verif.Plot.greek_fails`
- `Verif.Plot.plain_text`

Axioms: propext, Classical.choice, Quot.sound

- `Verif.Bunch.args_betay_fails`
- `Verif.Bunch.args_error`
- `Verif.Bunch.args_partial`
- `Verif.Bunch.beta_history`
- `Verif.Bunch.beta_positive_iff`
- `Verif.Bunch.beta_sign_fails`
- `Verif.Bunch.beta_sign_partial`
- `Verif.Bunch.beta_zero_fails`
- `Verif.Bunch.cutoff_setter_fails`
- `Verif.Bunch.elliptic_formula`
- `Verif.Bunch.elliptic_history`
- `Verif.Bunch.elliptic_refuses`
- `Verif.Bunch.elliptic_sign_fails`
- `Verif.Bunch.elliptic_sign_partial`
- `Verif.Bunch.emittance_ignored_fails`
- `Verif.Bunch.gaussian_aperture`
- `Verif.Bunch.gaussian_fails`
- `Verif.Bunch.gaussian_matched_iff`
- `Verif.Bunch.gaussian_partial`
- `Verif.Bunch.hamiltonian_invariants`
- `Verif.Bunch.hamiltonian_kv`
- `Verif.Bunch.hamiltonian_nonlinear`
- `Verif.Bunch.hamiltonian_rotation`
- `Verif.Bunch.ids_kept`
- `Verif.Bunch.kv_aperture`
- `Verif.Bunch.kv_betay_fails`
- `Verif.Bunch.kv_emittance_fails`
- `Verif.Bunch.kv_quiet_fails`
- `Verif.Bunch.kv_refuses`
- `Verif.Bunch.kv_shell_partial`
- `Verif.Bunch.longitudinal_only`
- `Verif.Bunch.nonlinear_args_partial`
- `Verif.Bunch.nonlinear_beta_history`
- `Verif.Bunch.nonlinear_betay_read`
- `Verif.Bunch.nonlinear_consistent_partial`
- `Verif.Bunch.nonlinear_cutoff_fails`
- `Verif.Bunch.nonlinear_emit`
- `Verif.Bunch.nonlinear_extent`
- `Verif.Bunch.nonlinear_gamma_fails`
- `Verif.Bunch.nonlinear_gaussian`
- `Verif.Bunch.nonlinear_kv`
- `Verif.Bunch.nonlinear_momentum`
- `Verif.Bunch.nonlinear_planes_fails`
- `Verif.Bunch.nonlinear_quiet`
- `Verif.Bunch.nonlinear_quiet_fails`
- `Verif.Bunch.nonlinear_shell`
- `Verif.Bunch.nonlinear_used`
- `Verif.Bunch.nonlinear_waterbag`
- `Verif.Bunch.potential_defined`
- `Verif.Bunch.potential_even`
- `Verif.Bunch.potential_formula`
- `Verif.Bunch.potential_linear`
- `Verif.Bunch.potential_no_inf`
- `Verif.Bunch.potential_number_partial`
- `Verif.Bunch.potential_outside_fails`
- `Verif.Bunch.potential_pole_fails`
- `Verif.Bunch.potential_singular`
- `Verif.Bunch.printed_betay`
- `Verif.Bunch.printed_consistent`
- `Verif.Bunch.printed_nonlinear_fails`
- `Verif.Bunch.quiet_centred`
- `Verif.Bunch.quiet_exact`
- `Verif.Bunch.read_betay_fails`
- `Verif.Bunch.read_partial`
- `Verif.Bunch.rounded_extent`
- `Verif.Bunch.rounded_quiet`
- `Verif.Bunch.rounded_shell_partial`
- `Verif.Bunch.standard_consistent`
- `Verif.Bunch.total_emittance_fails`
- `Verif.Bunch.total_emittance_partial`
- `Verif.Bunch.waterbag_aperture`
- `Verif.Const.constants_order`
- `Verif.Const.constants_partial`
- `Verif.Const.import_fails`
- `Verif.Decoherence.any_order`
- `Verif.Decoherence.array_cutoff_fails`
- `Verif.Decoherence.array_integrand`
- `Verif.Decoherence.array_integrand_partial`
- `Verif.Decoherence.array_single`
- `Verif.Decoherence.centroid_bound`
- `Verif.Decoherence.centroids_partial`
- `Verif.Decoherence.first_order`
- `Verif.Decoherence.first_order_decay`
- `Verif.Decoherence.last_turn_fails`
- `Verif.Decoherence.negative_turn_fails`
- `Verif.Decoherence.no_spread`
- `Verif.Decoherence.rounded_array`
- `Verif.Decoherence.rounded_array_fails`
- `Verif.Decoherence.rounded_array_single`
- `Verif.Decoherence.rounded_centroid`
- `Verif.Decoherence.rounded_integrand`
- `Verif.Decoherence.rounded_integrand_outside`
- `Verif.Decoherence.rounded_quadrature`
- `Verif.Decoherence.rounded_zero_fails`
- `Verif.Decoherence.second_order_fails`
- `Verif.Decoherence.second_order_partial`
- `Verif.Decoherence.turn_zero`
- `Verif.Decoherence.zero_coefficient_fails`
- `Verif.Import.import_cycle_fails`
- `Verif.Import.import_elements`
- `Verif.Import.import_first`
- `Verif.Import.import_ok_iff`
- `Verif.Import.import_partial`
- `Verif.Import.import_repeated_fails`
- `Verif.Import.import_reversed_fails`
- `Verif.Import.import_unknown`
- `Verif.Kinematic.calls_SI_exact`
- `Verif.Kinematic.calls_SI_fails`
- `Verif.Kinematic.calls_SI_iff`
- `Verif.Kinematic.calls_idempotent_partial`
- `Verif.Kinematic.command_ambiguous`
- `Verif.Kinematic.command_attached_fails`
- `Verif.Kinematic.command_line`
- `Verif.Kinematic.command_negative_fails`
- `Verif.Kinematic.command_same`
- `Verif.Kinematic.converter_physical`
- `Verif.Kinematic.converter_roundtrip`
- `Verif.Kinematic.converter_unit_independent`
- `Verif.Kinematic.fast_fails`
- `Verif.Kinematic.fast_finite`
- `Verif.Kinematic.fast_partial`
- `Verif.Kinematic.init_ok_iff`
- `Verif.Kinematic.input_label`
- `Verif.Kinematic.kenergy_back_partial`
- `Verif.Kinematic.kenergy_lost_fails`
- `Verif.Kinematic.mass_label`
- `Verif.Kinematic.output_labels`
- `Verif.Kinematic.printed_input_iff`
- `Verif.Kinematic.reported_electron_iff`
- `Verif.Kinematic.reported_input_SI_fails`
- `Verif.Kinematic.reported_input_exact`
- `Verif.Kinematic.reported_input_fails`
- `Verif.Kinematic.reported_mass_fails`
- `Verif.Kinematic.reported_mass_iff`
- `Verif.Kinematic.rounded_physical`
- `Verif.Kinematic.slow_fails`
- `Verif.Kinematic.value_back_partial`
- `Verif.Kinematic.zero_mass_replaced`
- `Verif.Lattice.add_again`
- `Verif.Lattice.edge_first_use`
- `Verif.Lattice.edge_mono_partial`
- `Verif.Lattice.edge_next_partial`
- `Verif.Lattice.edge_position_partial`
- `Verif.Lattice.edge_repeated_fails`
- `Verif.Lattice.edge_thin_fails`
- `Verif.Lattice.elements_add`
- `Verif.Lattice.elements_add_line`
- `Verif.Lattice.elements_in_order`
- `Verif.Lattice.history_partial`
- `Verif.Lattice.length_accuracy_partial`
- `Verif.Lattice.length_defined`
- `Verif.Lattice.length_flat`
- `Verif.Lattice.length_measures`
- `Verif.Lattice.length_order_fails`
- `Verif.Lattice.load_exact`
- `Verif.Lattice.matrix_arguments`
- `Verif.Lattice.matrix_common_partial`
- `Verif.Lattice.matrix_own_partial`
- `Verif.Lattice.matrix_succeeds_iff`
- `Verif.Lattice.matrix_symbols`
- `Verif.Lattice.matrix_symplectic`
- `Verif.Lattice.matrix_values_fails`
- `Verif.Lattice.one_definition_iff`
- `Verif.Lattice.one_definition_partial`
- `Verif.Lattice.param_get_fails`
- `Verif.Lattice.subline_definitions_fails`
- `Verif.Lattice.transfer_motion`
- `Verif.Lattice.transfer_split`
- `Verif.Lattice.typeMatrix_eval`
- `Verif.Lattice.uses_registered`
- `Verif.Lattice.yaml_flat_partial`
- `Verif.Lattice.yaml_iff`
- `Verif.Lattice.yaml_keys_fails`
- `Verif.Lattice.yaml_name_fails`
- `Verif.Lattice.yaml_sublines_fails`
- `Verif.Lte.blank_line`
- `Verif.Lte.comment_end_fails`
- `Verif.Lte.comment_file_partial`
- `Verif.Lte.comment_line_partial`
- `Verif.Lte.comment_tail_exact`
- `Verif.Lte.comment_tail_fails`
- `Verif.Lte.comment_tail_partial`
- `Verif.Lte.definition_bare_exact`
- `Verif.Lte.definition_bare_fails`
- `Verif.Lte.definition_bare_partial`
- `Verif.Lte.definition_colon_fails`
- `Verif.Lte.definition_exact`
- `Verif.Lte.definition_partial`
- `Verif.Lte.definition_text_fails`
- `Verif.Lte.file_sequence_iff`
- `Verif.Lte.file_sequence_partial`
- `Verif.Lte.new_call`
- `Verif.Lte.parse_acts`
- `Verif.Lte.repetition_blank_fails`
- `Verif.Lte.repetition_group_fails`
- `Verif.Lte.repetition_partial`
- `Verif.Lte.rpn_pi_near`
- `Verif.Lte.rpn_reject`
- `Verif.Lte.rpn_reject_behind`
- `Verif.Lte.rpn_underflow`
- `Verif.Lte.rpn_value`
- `Verif.Lte.sequence_iff`
- `Verif.Lte.sequence_partial`
- `Verif.Lte.sequence_repeat_fails`
- `Verif.Lte.session_again_exact`
- `Verif.Lte.session_again_fails`
- `Verif.Lte.session_title`
- `Verif.Lte.set_capital_fails`
- `Verif.Lte.set_first_partial`
- `Verif.Lte.set_ignored`
- `Verif.Lte.variable_inside_fails`
- `Verif.Lte.variable_of_variable_fails`
- `Verif.Lte.variable_stored`
- `Verif.Lte.variables_partial`
- `Verif.Nonlinear.drift_beta`
- `Verif.Nonlinear.generate_refuses`
- `Verif.Nonlinear.generated_finite_partial`
- `Verif.Nonlinear.generated_nan_fails`
- `Verif.Nonlinear.insert_halves_fails`
- `Verif.Nonlinear.insert_large_fails`
- `Verif.Nonlinear.insert_small_fails`
- `Verif.Nonlinear.madx_elements`
- `Verif.Nonlinear.phase_fails`
- `Verif.Nonlinear.phase_partial`
- `Verif.Nonlinear.set_c_fails`
- `Verif.Nonlinear.slices_symmetric`
- `Verif.Nonlinear.strengths`
- `Verif.Phases.advance_end_fails`
- `Verif.Phases.clockwise_advance`
- `Verif.Phases.column_fails`
- `Verif.Phases.column_tone_fails`
- `Verif.Phases.counterclockwise_advance_partial`
- `Verif.Phases.counterclockwise_zero_fails`
- `Verif.Phases.offset_tone_fails`
- `Verif.Phases.pure_tone_default_partial`
- `Verif.Phases.pure_tone_partial`
- `Verif.Phases.rounded_advance_partial`
- `Verif.Phases.tune_range`
- `Verif.Phases.tune_refuses`
- `Verif.Phases.tune_turns`
- `Verif.Plot.beamline_profile_axis`
- `Verif.Plot.beamline_profile_default`
- `Verif.Plot.beamline_profile_iff`
- `Verif.Plot.beamline_profile_no_column`
- `Verif.Plot.beamline_profile_no_s`
- `Verif.Plot.beamline_profile_page`
- `Verif.Plot.beamline_profile_shows`
- `Verif.Plot.centres_spec`
- `Verif.Plot.clear_last`
- `Verif.Plot.clear_two_fails`
- `Verif.Plot.combo_shows`
- `Verif.Plot.contour_axes_exact`
- `Verif.Plot.contour_axes_fails`
- `Verif.Plot.contour_axes_levels`
- `Verif.Plot.contour_iff`
- `Verif.Plot.contour_one_level`
- `Verif.Plot.contour_shows`
- `Verif.Plot.contour_sparse_fails`
- `Verif.Plot.control_words_iff`
- `Verif.Plot.counts_interval`
- `Verif.Plot.counts_total`
- `Verif.Plot.current_refuses`
- `Verif.Plot.current_rounded_partial`
- `Verif.Plot.current_total`
- `Verif.Plot.density_borders`
- `Verif.Plot.density_cell`
- `Verif.Plot.density_refuses`
- `Verif.Plot.density_total`
- `Verif.Plot.histogram_bins_partial`
- `Verif.Plot.histogram_neighbours_fails`
- `Verif.Plot.histogram_refuses`
- `Verif.Plot.histogram_total_partial`
- `Verif.Plot.inverted`
- `Verif.Plot.label_fails`
- `Verif.Plot.label_first`
- `Verif.Plot.label_iff`
- `Verif.Plot.label_partial`
- `Verif.Plot.letters_exact`
- `Verif.Plot.levels_constant_fails`
- `Verif.Plot.levels_cover_iff`
- `Verif.Plot.levels_cover_partial`
- `Verif.Plot.levels_small_fails`
- `Verif.Plot.levels_spaced`
- `Verif.Plot.limits_contain`
- `Verif.Plot.lines_fails`
- `Verif.Plot.lines_partial`
- `Verif.Plot.longitudinal_agrees`
- `Verif.Plot.longitudinal_given`
- `Verif.Plot.longitudinal_missing_fails`
- `Verif.Plot.longitudinal_zero_partial`
- `Verif.Plot.no_overlap`
- `Verif.Plot.overlap_fails`
- `Verif.Plot.overlap_iff`
- `Verif.Plot.phase_space_partial`
- `Verif.Plot.phase_space_zero_fails`
- `Verif.Plot.picture_each`
- `Verif.Plot.picture_iff`
- `Verif.Plot.picture_own_partial`
- `Verif.Plot.picture_two_fails`
- `Verif.Plot.plane_pictures`
- `Verif.Plot.plot_contains`
- `Verif.Plot.plot_empty`
- `Verif.Plot.profile_overlap_fails`
- `Verif.Plot.profile_refuses`
- `Verif.Plot.profile_rounded_partial`
- `Verif.Plot.profile_touch_partial`
- `Verif.Plot.projection_agrees`
- `Verif.Plot.projection_shows`
- `Verif.Plot.rectangles`
- `Verif.Plot.rounded_constant_fails`
- `Verif.Plot.rounded_cover_partial`
- `Verif.Plot.rounded_levels`
- `Verif.Plot.rounded_pictures`
- `Verif.Plot.rounded_pictures_equal_fails`
- `Verif.Plot.rounded_pictures_order`
- `Verif.Plot.rounded_small_fails`
- `Verif.Plot.save_twice`
- `Verif.Plot.scatter_axes_fails`
- `Verif.Plot.scatter_lengths`
- `Verif.Plot.scatter_refuses`
- `Verif.Plot.scatter_shows`
- `Verif.Plot.types_colors`
- `Verif.Ptcls.beam_twiss_iff`
- `Verif.Ptcls.calc_twiss_fails`
- `Verif.Ptcls.calc_twiss_partial`
- `Verif.Ptcls.calc_twiss_refuses`
- `Verif.Ptcls.clean_fails`
- `Verif.Ptcls.clean_first`
- `Verif.Ptcls.clean_mean`
- `Verif.Ptcls.clean_partial`
- `Verif.Ptcls.clean_unit_iff`
- `Verif.Ptcls.clean_variance`
- `Verif.Ptcls.component_refuses`
- `Verif.Ptcls.coordinate_range`
- `Verif.Ptcls.design_fast`
- `Verif.Ptcls.design_rounded`
- `Verif.Ptcls.distrib_kind_fails`
- `Verif.Ptcls.distrib_refuses`
- `Verif.Ptcls.gamma_large_fails`
- `Verif.Ptcls.gamma_moments_partial`
- `Verif.Ptcls.gamma_rounded`
- `Verif.Ptcls.gamma_zero_beta`
- `Verif.Ptcls.gauss_cut_fails`
- `Verif.Ptcls.gauss_cut_partial`
- `Verif.Ptcls.make_twiss_fails`
- `Verif.Ptcls.make_twiss_long`
- `Verif.Ptcls.make_twiss_partial`
- `Verif.Ptcls.make_twiss_refuses`
- `Verif.Ptcls.make_twiss_short_fails`
- `Verif.Ptcls.moments_refused_fails`
- `Verif.Ptcls.moments_refused_iff`
- `Verif.Ptcls.moments_rounded_partial`
- `Verif.Ptcls.multiply_moments`
- `Verif.Ptcls.multiply_power`
- `Verif.Ptcls.multiply_rounded`
- `Verif.Ptcls.name_kept`
- `Verif.Ptcls.new_phase_space`
- `Verif.Ptcls.offset_exact`
- `Verif.Ptcls.offset_large_fails`
- `Verif.Ptcls.offset_moments`
- `Verif.Ptcls.offset_rounded`
- `Verif.Ptcls.offset_undo_partial`
- `Verif.Ptcls.peak_current`
- `Verif.Ptcls.peak_current_refuses`
- `Verif.Ptcls.peak_current_twice_fails`
- `Verif.Ptcls.peak_current_twice_partial`
- `Verif.Ptcls.peak_rounded`
- `Verif.Ptcls.range_refuses`
- `Verif.Ptcls.read_missing`
- `Verif.Ptcls.read_wrong_fails`
- `Verif.Ptcls.relativistic`
- `Verif.Ptcls.rounded_gauss`
- `Verif.Ptcls.rounded_gauss_same`
- `Verif.Ptcls.rounded_refuses`
- `Verif.Ptcls.rounded_uniform_fails`
- `Verif.Ptcls.rounded_uniform_partial`
- `Verif.Ptcls.rounded_uniform_same`
- `Verif.Ptcls.set_array_fails`
- `Verif.Ptcls.store_matches_partial`
- `Verif.Ptcls.twiss_large_fails`
- `Verif.Ptcls.twiss_map_partial`
- `Verif.Ptcls.twiss_round_partial`
- `Verif.Ptcls.twiss_rounded_partial`
- `Verif.Ptcls.twiss_upright_fails`
- `Verif.Ptcls.uniform_coordinates`
- `Verif.Ptcls.uniform_inside`
- `Verif.Ptcls.variance_after`
- `Verif.Ptcls.write_read`
- `Verif.Sample.cdf_table`
- `Verif.Sample.interp_flat_fails`
- `Verif.Sample.interp_iff`
- `Verif.Sample.interp_node_exact`
- `Verif.Sample.interp_node_partial`
- `Verif.Sample.interp_outside_fails`
- `Verif.Sample.interp_rounded_partial`
- `Verif.Sample.interp_short`
- `Verif.Sample.interp_uniform`
- `Verif.Sample.interp_zero_fails`
- `Verif.Sample.inverse_interval`
- `Verif.Sample.inverse_weight`
- `Verif.Sample.numeric_fails`
- `Verif.Sample.numeric_rounded_iff`
- `Verif.Sample.numeric_small_partial`
- `Verif.Sample.sample_halton_fails`
- `Verif.Sample.sample_random_partial`
- `Verif.Sdds.accessors_exact`
- `Verif.Sdds.array_fails`
- `Verif.Sdds.ascii_buffered_fails`
- `Verif.Sdds.ascii_buffered_gaps`
- `Verif.Sdds.ascii_buffered_lost`
- `Verif.Sdds.ascii_column_names_fails`
- `Verif.Sdds.ascii_ends_partial`
- `Verif.Sdds.ascii_extra_words_fails`
- `Verif.Sdds.ascii_last_newline`
- `Verif.Sdds.ascii_names_partial`
- `Verif.Sdds.ascii_open_ends`
- `Verif.Sdds.ascii_param_names_fails`
- `Verif.Sdds.ascii_ragged_gaps`
- `Verif.Sdds.ascii_ragged_partial`
- `Verif.Sdds.ascii_read_partial`
- `Verif.Sdds.ascii_save_empty_fails`
- `Verif.Sdds.ascii_save_integers_fails`
- `Verif.Sdds.ascii_save_read_partial`
- `Verif.Sdds.ascii_save_short_fails`
- `Verif.Sdds.ascii_selected_ends`
- `Verif.Sdds.ascii_short_line_fails`
- `Verif.Sdds.blank_lines_lost`
- `Verif.Sdds.buffer_agree_iff`
- `Verif.Sdds.buffer_agree_partial`
- `Verif.Sdds.buffer_newline_fails`
- `Verif.Sdds.buffer_unbuffered_exact`
- `Verif.Sdds.buffered_ends_partial`
- `Verif.Sdds.call_first`
- `Verif.Sdds.character_fails`
- `Verif.Sdds.column_bytes_fails`
- `Verif.Sdds.column_bytes_iff`
- `Verif.Sdds.column_bytes_mixed_fails`
- `Verif.Sdds.column_bytes_one_type_iff`
- `Verif.Sdds.column_bytes_partial`
- `Verif.Sdds.column_data_type`
- `Verif.Sdds.column_lookup`
- `Verif.Sdds.column_type_fails`
- `Verif.Sdds.create_column_iff`
- `Verif.Sdds.create_history`
- `Verif.Sdds.create_parameter_iff`
- `Verif.Sdds.cut_call`
- `Verif.Sdds.cut_refused_partial`
- `Verif.Sdds.cut_selected_exact`
- `Verif.Sdds.cut_then_read_fails`
- `Verif.Sdds.cut_unbuffered_exact`
- `Verif.Sdds.cut_unbuffered_fails`
- `Verif.Sdds.early_end_fails`
- `Verif.Sdds.explicit_mode_partial`
- `Verif.Sdds.explicit_zero_fails`
- `Verif.Sdds.failed_save_fails`
- `Verif.Sdds.field_length_fails`
- `Verif.Sdds.fixed_blank_fails`
- `Verif.Sdds.fixed_length_kept`
- `Verif.Sdds.fixed_text_iff`
- `Verif.Sdds.fixed_value_fails`
- `Verif.Sdds.fixed_value_partial`
- `Verif.Sdds.foreign_ignored_partial`
- `Verif.Sdds.free_buffered_fails`
- `Verif.Sdds.free_comment_fails`
- `Verif.Sdds.free_read_partial`
- `Verif.Sdds.free_skip_fails`
- `Verif.Sdds.generator_pages`
- `Verif.Sdds.get_entry_read`
- `Verif.Sdds.header_comments`
- `Verif.Sdds.header_cut_exact`
- `Verif.Sdds.lines_iff`
- `Verif.Sdds.metadata_fails`
- `Verif.Sdds.metadata_iff`
- `Verif.Sdds.metadata_partial`
- `Verif.Sdds.negative_numbers_fails`
- `Verif.Sdds.negative_rows_fails`
- `Verif.Sdds.negative_skip_fails`
- `Verif.Sdds.negative_strings_fails`
- `Verif.Sdds.never_ends_iff`
- `Verif.Sdds.odd_quotes_fail`
- `Verif.Sdds.open_blank_fails`
- `Verif.Sdds.open_ends_iff`
- `Verif.Sdds.open_ends_partial`
- `Verif.Sdds.open_fuel`
- `Verif.Sdds.open_iff`
- `Verif.Sdds.open_truncated_fails`
- `Verif.Sdds.pages_aligned_iff`
- `Verif.Sdds.pages_aligned_partial`
- `Verif.Sdds.pages_shifted_fails`
- `Verif.Sdds.param_lookup`
- `Verif.Sdds.quoted_comma_fails`
- `Verif.Sdds.quoted_verbatim_iff`
- `Verif.Sdds.quoted_verbatim_partial`
- `Verif.Sdds.quotes_need_backslash`
- `Verif.Sdds.quotes_never_return`
- `Verif.Sdds.ragged_stays_failed`
- `Verif.Sdds.readZ_read`
- `Verif.Sdds.read_again_partial`
- `Verif.Sdds.read_all_pages_partial`
- `Verif.Sdds.read_ragged_fails`
- `Verif.Sdds.read_selected_exact`
- `Verif.Sdds.read_selected_partial`
- `Verif.Sdds.read_selected_strings_exact`
- `Verif.Sdds.read_selected_strings_fails`
- `Verif.Sdds.read_selected_strings_iff`
- `Verif.Sdds.read_selected_unbuffered_exact`
- `Verif.Sdds.read_selected_unbuffered_fails`
- `Verif.Sdds.read_strings_exact`
- `Verif.Sdds.read_strings_fails`
- `Verif.Sdds.read_strings_iff`
- `Verif.Sdds.read_strings_partial`
- `Verif.Sdds.read_twice_fails`
- `Verif.Sdds.record_fields_partial`
- `Verif.Sdds.record_length_fails`
- `Verif.Sdds.return_type_fails`
- `Verif.Sdds.save_read_iff`
- `Verif.Sdds.save_read_large_fails`
- `Verif.Sdds.save_read_large_partial`
- `Verif.Sdds.save_read_mixed_fails`
- `Verif.Sdds.save_read_partial`
- `Verif.Sdds.save_read_unbuffered_iff`
- `Verif.Sdds.save_succeeds_iff`
- `Verif.Sdds.save_types_fails`
- `Verif.Sdds.save_types_partial`
- `Verif.Sdds.selected_ends_partial`
- `Verif.Sdds.unbuffered_ends_partial`
- `Verif.Sdds.uncounted_fails`
- `Verif.Sdds.uncounted_lines_fails`
- `Verif.Sdds.uncounted_none_fails`
- `Verif.SigFigs.sig_again`
- `Verif.SigFigs.sig_error`
- `Verif.SigFigs.sig_fixed`
- `Verif.SigFigs.sig_hundred_fails`
- `Verif.SigFigs.sig_mono`
- `Verif.SigFigs.sig_one`
- `Verif.SigFigs.sig_rounded_partial`
- `Verif.SigFigs.sig_sign`
- `Verif.SigFigs.sig_small_fails`
- `Verif.SigFigs.sig_twice`
- `Verif.SigFigs.sig_unit`
- `Verif.Stats6d.avg_accuracy_partial`
- `Verif.Stats6d.avg_three_fails`
- `Verif.Stats6d.avg_two_partial`
- `Verif.Stats6d.correlations_accuracy_partial`
- `Verif.Stats6d.correlations_exact`
- `Verif.Stats6d.correlations_fails`
- `Verif.Stats6d.correlations_iff`
- `Verif.Stats6d.correlations_pair_fails`
- `Verif.Stats6d.correlations_partial`
- `Verif.Stats6d.correlations_rounded_symm`
- `Verif.Stats6d.cov_psd`
- `Verif.Stats6d.jacobi_correct`
- `Verif.Stats6d.jacobi_invariant`
- `Verif.Stats6d.jacobi_orthonormal`
- `Verif.Stats6d.jacobi_symmetric_fails`
- `Verif.Stats6d.jacobi_symmetric_iff`
- `Verif.Stats6d.normalize_accuracy_partial`
- `Verif.Stats6d.normalize_pair_fails`
- `Verif.Stats6d.normalize_rms_exact`
- `Verif.Stats6d.normalize_rms_fails`
- `Verif.Stats6d.normalize_rms_iff`
- `Verif.Stats6d.normalize_rms_partial`
- `Verif.Stats6d.normalize_rounded_partial`
- `Verif.Stats6d.rm_correlations_exact`
- `Verif.Stats6d.rm_correlations_fails`
- `Verif.Stats6d.rm_correlations_partial`
- `Verif.Stats6d.rounded_variance`
- `Verif.Stats6d.rounded_variance_equal`
- `Verif.Stats6d.statistics_overwrite`
- `Verif.Stats6d.statistics_twice_iff`
- `Verif.Stats6d.sub_avg_centers`
- `Verif.Stats6d.variance_accuracy_partial`
- `Verif.Stats6d.variance_correct`
- `Verif.Stats6d.variance_empty`
- `Verif.Stats6d.variance_overwrites`
- `Verif.Stats6d.variance_pair_fails`
- `Verif.Stats6d.variance_pure_partial`
- `Verif.Stats6d.variance_smaller_fails`
- `Verif.Stats6d.variance_twice_exact`
- `Verif.Stats6d.variance_twice_fails`
- `Verif.Switch.elegant_changes_fails`
- `Verif.Switch.elegant_exact_partial`
- `Verif.Switch.elegant_kind_fails`
- `Verif.Switch.elegant_kind_partial`
- `Verif.Switch.elegant_momentum_fails`
- `Verif.Switch.elegant_no_charge`
- `Verif.Switch.elegant_pages_fails`
- `Verif.Switch.elegant_round_partial`
- `Verif.Switch.elegant_rounded_partial`
- `Verif.Switch.elegant_single_fails`
- `Verif.Switch.elegant_single_rows_partial`
- `Verif.Switch.elegant_twice`
- `Verif.Switch.failed_read`
- `Verif.Switch.first_stays`
- `Verif.Switch.first_wins`
- `Verif.Switch.formats`
- `Verif.Switch.genesis_fails`
- `Verif.Switch.genesis_file`
- `Verif.Switch.genesis_one`
- `Verif.Switch.genesis_rounded_partial`
- `Verif.Switch.opal_charge_fails`
- `Verif.Switch.opal_datasets_exact`
- `Verif.Switch.opal_last_partial`
- `Verif.Switch.opal_lengths`
- `Verif.Switch.opal_missing`
- `Verif.Switch.opal_missing_dataset`
- `Verif.Switch.opal_momentum_fails`
- `Verif.Switch.opal_step_partial`
- `Verif.Switch.opal_zero_fails`
- `Verif.Switch.readElegantAll_one`
- `Verif.Switch.supported_formats_partial`
- `Verif.Switch.writable`
- `Verif.Switch.write_default_fails`
- `Verif.Switch.write_default_iff`
- `Verif.Switch.write_default_other_fails`
- `Verif.Switch.write_default_partial`
- `Verif.Switch.write_default_species`
- `Verif.Trace.bends_error_exact`
- `Verif.Trace.bends_first_fails`
- `Verif.Trace.bends_ok_iff`
- `Verif.Trace.bends_partial`
- `Verif.Trace.bends_result`
- `Verif.Trace.bends_shared_exact`
- `Verif.Trace.bends_shared_fails`
- `Verif.Trace.cavities_converted`
- `Verif.Trace.cavity_length_exact`
- `Verif.Trace.cavity_length_partial`
- `Verif.Trace.cavity_length_two`
- `Verif.Trace.cavity_phase_fails`
- `Verif.Trace.cavity_phase_last`
- `Verif.Trace.cavity_phase_partial`
- `Verif.Trace.comments_end_fails`
- `Verif.Trace.comments_partial`
- `Verif.Trace.entries_fails`
- `Verif.Trace.entries_last_fails`
- `Verif.Trace.frequency_fails`
- `Verif.Trace.number_read_iff`
- `Verif.Trace.numbers_exact`
- `Verif.Trace.numbers_fails`
- `Verif.Trace.numbers_partial`
- `Verif.Trace.parseFile_count`
- `Verif.Trace.rounded_arc`
- `Verif.Trace.rounded_cavity_partial`
- `Verif.Trace.rounded_full_cell_fails`
- `Verif.Trace.rounded_trace_partial`
- `Verif.Trace.rounded_win_length`
- `Verif.Trace.trace_file_partial`
- `Verif.Trace.trace_name_unclosed`
- `Verif.Trace.trace_type_unknown`
- `Verif.Trace.win_dtl_exact`
- `Verif.Trace.win_field_map_exact`
- `Verif.Trace.win_field_map_fails`
- `Verif.Trace.win_length`
- `Verif.Trace.win_names`
- `Verif.Trace.win_ncells_exact`
- `Verif.Trace.win_ncells_refused`
- `Verif.Warp.central_momentum_fails`
- `Verif.Warp.convertElem_iff`
- `Verif.Warp.convert_ok_iff`
- `Verif.Warp.convert_text`
- `Verif.Warp.elegantToWarp_ok`
- `Verif.Warp.fieldMap_eq`
- `Verif.Warp.getFloat_error`
- `Verif.Warp.gradient_accurate_partial`
- `Verif.Warp.gradient_exact`
- `Verif.Warp.gradient_fails`
- `Verif.Warp.gradient_nan_fails`
- `Verif.Warp.gradient_partial`
- `Verif.Warp.gradient_rest`
- `Verif.Warp.gradient_sign`
- `Verif.Warp.gradient_slow_partial`
- `Verif.Warp.supported_fails`
- `Verif.Warp.supported_partial`
- `Verif.Warp.warp_again_fails`
- `Verif.Warp.warp_empty_fails`
- `Verif.Warp.warp_error`
- `Verif.Warp.warp_exact`
- `Verif.Warp.warp_partial`

Axioms: propext, Quot.sound

- `Verif.Import.import_numbers`
- `Verif.Lattice.edit_index_fails`
- `Verif.Lattice.edit_index_partial`
- `Verif.Lattice.edit_name_partial`
- `Verif.Lattice.edit_subline_fails`
- `Verif.Lattice.elements_iff`
- `Verif.Lattice.param_last_value`
- `Verif.Lattice.unfold_elements`
- `Verif.Lte.variable_start_fails`
- `Verif.Plot.balanced`
- `Verif.Plot.balanced_iff`
- `Verif.Plot.control_words_partial`
- `Verif.Plot.one_formula`
- `Verif.Plot.own_braces_fails`
- `Verif.Ptcls.check_exact`
- `Verif.Ptcls.new_store`
- `Verif.Sample.args_partial`
- `Verif.Sample.args_zero_fails`
- `Verif.Sample.sample_refuses`
- `Verif.Sdds.atPages_spec`
- `Verif.Sdds.dataVal_int`
- `Verif.Sdds.falsy_iff`
- `Verif.Sdds.generator_exact`
- `Verif.Sdds.get_entry_exact`
- `Verif.Sdds.get_entry_fails`
- `Verif.Sdds.stack_type_least`
- `Verif.Sdds.stacked_bytes`
- `Verif.Switch.opal_export`

