{"id": "C01", "title": "Binary SDDS save/read round trip", "statement": "If a user builds a writeSDDS with double and long parameters and columns whose declared type matches the stored array type, saves it with dataMode='binary' and reads the file with readSDDS(...).read(), then the parameters and columns that come back have the same names in the same order and exactly the same values, bit for bit.", "quantifier": "for all lists of parameters and columns with well formed names and metadata, all 64/32-bit values and all row counts below 2^32", "why_tests_cant": "The value space is every list of parameters, every number of rows and every bit pattern; a test samples a handful of files.", "anchors": ["rsbeams/rsdata/SDDS.py:writeSDDS.save_sdds", "rsbeams/rsdata/SDDS.py:writeSDDS._write_header", "rsbeams/rsdata/SDDS.py:readSDDS._read_header", "rsbeams/rsdata/SDDS.py:readSDDS._parse_header", "rsbeams/rsdata/SDDS.py:readSDDS.read", "rsbeams/rsdata/utils.py:_read_line", "rsbeams/rsdata/utils.py:_shlex_split", "rsbeams/rsdata/datatypes.py:Datum.parse_namelist"]}
{"id": "C02", "title": "SDDS metadata round trip", "statement": "Units, symbol, description and format string given to create_parameter/create_column are exactly what parameter_units(), parameter_symbols(), parameter_descriptions(), column_units(), column_symbols() and column_descriptions() return after saving and reading the file back.", "quantifier": "for all metadata strings (the claim holds for printable ASCII text without a double quote, backslash or trailing comma; outside that set the model exhibits strings that come back different)", "why_tests_cant": "The strings are arbitrary text and only unusual characters (quotes, backslashes, commas, non-ASCII letters) break the text format.", "anchors": ["rsbeams/rsdata/SDDS.py:writeSDDS._write_header", "rsbeams/rsdata/utils.py:_shlex_split", "rsbeams/rsdata/datatypes.py:Datum.parse_namelist", "rsbeams/rsdata/SDDS.py:readSDDS.parameter_units"]}
{"id": "C03", "title": "Fixed parameter values survive", "statement": "A parameter created with parFixedVal=v is read back with value v, and it takes no bytes from the data section of the file.", "quantifier": "for all integers, floats and strings v of the declared type (false for v = 0, 0.0 and '', which the writer drops)", "why_tests_cant": "Only the falsy values fail; whether a fixed value shifts the following data depends on the combination of all parameters.", "anchors": ["rsbeams/rsdata/SDDS.py:writeSDDS.create_parameter", "rsbeams/rsdata/datatypes.py:Parameter", "rsbeams/rsdata/SDDS.py:readSDDS._get_parameter_data"]}
{"id": "C04", "title": "Binary column bytes agree with the declared type", "statement": "The number of bytes save_sdds writes for a table equals rows times the sum of the declared column widths, so that a reader using the header can find every value.", "quantifier": "for all column lists (true when every array has the declared dtype; false for a long column given as a default integer array or mixed with doubles)", "why_tests_cant": "Depends on dtype promotion across an arbitrary list of columns.", "anchors": ["rsbeams/rsdata/SDDS.py:writeSDDS.save_sdds", "rsbeams/rsdata/SDDS.py:writeSDDS.create_column"]}
{"id": "C05", "title": "Every declared parameter type can be saved", "statement": "create_parameter accepts the types double, short, long and string; saving a file in binary mode with any of them succeeds.", "quantifier": "for all parameter lists (false: short and string always raise, double and long succeed exactly when the value is in range)", "why_tests_cant": "The failing condition must be characterised for all values, not for the sampled ones.", "anchors": ["rsbeams/rsdata/SDDS.py:writeSDDS.save_sdds", "rsbeams/rsdata/SDDS.py:key_indentity"]}
{"id": "C06", "title": "Multi-page binary files are read completely and in order", "statement": "Reading a well formed little-endian binary SDDS file (fixed-width parameters and columns) with read() returns the parameters and the columns of every page, in file order.", "quantifier": "for all headers with fixed-width types, all numbers of pages and all page contents with at least one row", "why_tests_cant": "The number of pages and rows is unbounded; page boundaries are found only by arithmetic on the running file position.", "anchors": ["rsbeams/rsdata/SDDS.py:readSDDS.read", "rsbeams/rsdata/SDDS.py:readSDDS._get_parameter_data", "rsbeams/rsdata/SDDS.py:readSDDS._get_column_data", "rsbeams/rsdata/SDDS.py:readSDDS._check_file_end"]}
{"id": "C07", "title": "Page selection returns exactly the pages asked for", "statement": "read(pages=...) returns the same parameter and column pages that a full read returns, restricted to the requested page numbers and in file order.", "quantifier": "for all page contents and all lists of page numbers (proved for fixed-width buffered files; false when a string column or string parameter is present, where columns of skipped pages are stored too)", "why_tests_cant": "Which pages leak depends on the combination of the types in the header and the chosen pages.", "anchors": ["rsbeams/rsdata/SDDS.py:readSDDS.read"]}
{"id": "C08", "title": "Buffered and unbuffered reading agree", "statement": "readSDDS(f, buffer=True) and readSDDS(f, buffer=False) return the same data for the same file.", "quantifier": "for all files (false: a page whose second byte is a newline, for example 2560 rows, is taken for the end of the file when unbuffered; a page skipped in unbuffered mode moves all later reads)", "why_tests_cant": "The disagreement needs particular byte values at page boundaries.", "anchors": ["rsbeams/rsdata/SDDS.py:readSDDS._check_file_end", "rsbeams/rsdata/SDDS.py:readSDDS.read"]}
{"id": "C09", "title": "Binary string fields are read exactly", "statement": "In a binary file with string columns or string parameters (32-bit length followed by the characters), every string comes back as written when it is not longer than max_string_length, and the numeric fields around it are not disturbed.", "quantifier": "for all rows, all string lengths and all positions of string fields among the columns", "why_tests_cant": "The offset of each field depends on the lengths of all earlier strings in all earlier rows.", "anchors": ["rsbeams/rsdata/SDDS.py:readSDDS._compose_column_datatypes", "rsbeams/rsdata/SDDS.py:readSDDS._get_column_data", "rsbeams/rsdata/SDDS.py:readSDDS._get_parameter_data", "rsbeams/rsdata/struct_data.py:StructData._merge"]}
{"id": "C10", "title": "Comments and blank lines in the header do not matter", "statement": "Inserting comment lines (starting with '!') and blank lines between the lines of an SDDS header does not change the parameters, columns and data mode that the reader sees, nor where a binary data section starts.", "quantifier": "for all headers and all numbers and positions of inserted lines", "why_tests_cant": "Unbounded insertions; for buffered ASCII data the line count goes wrong, which tests without blank lines do not show.", "anchors": ["rsbeams/rsdata/utils.py:_read_line", "rsbeams/rsdata/SDDS.py:readSDDS._read_header", "rsbeams/rsdata/SDDS.py:readSDDS._parse_header"]}
{"id": "C11", "title": "Opening a file always ends", "statement": "readSDDS(filename) either returns or raises for every input file.", "quantifier": "for all byte strings (false: any file that ends before the end of the header makes the constructor loop for ever; for files with a complete header it ends)", "why_tests_cant": "Non-termination cannot be observed by a test, and termination must hold for all inputs.", "anchors": ["rsbeams/rsdata/utils.py:_read_line", "rsbeams/rsdata/SDDS.py:readSDDS._read_header"]}
{"id": "C12", "title": "Quoted header values are taken verbatim", "statement": "A namelist entry key=\"text\" gives the field the value text, including spaces, equals signs, single quotes and namelist-like words, and unquoted entries are split at white space only.", "quantifier": "for all texts without a double quote or backslash, and all field lists", "why_tests_cant": "Arbitrary text; the tokenizer is a state machine over characters.", "anchors": ["rsbeams/rsdata/utils.py:_shlex_split", "rsbeams/rsdata/datatypes.py:Datum.parse_namelist"]}
{"id": "C13", "title": "Explicitly written defaults mean the same as omitted ones", "statement": "Writing no_row_counts=0 in the &data namelist gives the same reading behaviour as leaving it out.", "quantifier": "for all ASCII files (false: the text '0' counts as true)", "why_tests_cant": "Requires comparing two readings of every file.", "anchors": ["rsbeams/rsdata/datatypes.py:Data", "rsbeams/rsdata/SDDS.py:readSDDS._compose_parameter_datatypes"]}
{"id": "C14", "title": "Multi-page ASCII files are read completely and in order", "statement": "Reading a well formed ASCII SDDS file with several pages returns the parameters and columns of every page.", "quantifier": "for all numbers of pages and rows (false in buffered mode from the second page on, because the line position advances by twice the number of rows)", "why_tests_cant": "The error is in the position bookkeeping over an unbounded number of pages.", "anchors": ["rsbeams/rsdata/SDDS.py:readSDDS.read", "rsbeams/rsdata/SDDS.py:readSDDS._get_column_data", "rsbeams/rsdata/SDDS.py:readSDDS._get_ascii_row_count"]}
{"id": "C15", "title": "A failed save leaves the old file alone", "statement": "If save_sdds detects that the columns have different lengths, an existing file of that name is unchanged.", "quantifier": "for all previous contents and all column lists (false: the file is emptied)", "why_tests_cant": "Requires a statement about every previous file content and every failing input.", "anchors": ["rsbeams/rsdata/SDDS.py:writeSDDS.save_sdds"]}
{"id": "C16", "title": "Pages without rows keep their place", "statement": "After reading, parameters[k] and columns[k] belong to the same page k of the file.", "quantifier": "for all page lists (true when no page is empty; false when a page has zero rows, since its column entry is dropped)", "why_tests_cant": "Alignment must hold for any interleaving of empty and non-empty pages.", "anchors": ["rsbeams/rsdata/SDDS.py:readSDDS.read"]}
{"id": "C17", "title": "elegant conversion round trip", "statement": "Writing a species with write(..., 'elegant') and reading the file back gives the same six coordinates for every particle and the same total charge, in exact arithmetic.", "quantifier": "for all particle arrays with non-zero total momentum and all charges", "why_tests_cant": "Continuous domain; the composition of two conversions must be the identity everywhere.", "anchors": ["rsbeams/rsdata/switchyard.py:Switchyard.write_elegant", "rsbeams/rsdata/switchyard.py:read_elegant"]}
{"id": "C18", "title": "Species registered first wins, and nothing is lost", "statement": "Once a species name is registered in a Switchyard, later reads under the same name never change what the name refers to; reads under other names do not affect it; failed reads change nothing.", "quantifier": "for all finite sequences of read calls with any names, formats and outcomes", "why_tests_cant": "The claim is about every history of calls.", "anchors": ["rsbeams/rsdata/switchyard.py:Switchyard.read", "rsbeams/rsdata/switchyard.py:Switchyard._species_insert", "rsbeams/rsdata/switchyard.py:Switchyard._get_reader"]}
{"id": "C19", "title": "Advertised formats can be read", "statement": "For every code name with is_supported(code) true, read(..., code) does not fail with the 'not recognized' LookupError, and for every other name it does, before the file is opened.", "quantifier": "for all strings (false for 'genesis')", "why_tests_cant": "Quantifies over all names.", "anchors": ["rsbeams/rsdata/switchyard.py:Switchyard.is_supported", "rsbeams/rsdata/switchyard.py:Switchyard._get_reader"]}
{"id": "C20", "title": "OPAL step selection", "statement": "read_opal without a step number reads the largest step in the file, and with step_number=n it reads step n.", "quantifier": "for all sets of group names and all n (false for n = 0, which reads the last step instead)", "why_tests_cant": "All sets of keys and all numbers.", "anchors": ["rsbeams/rsdata/switchyard.py:read_opal", "rsbeams/rsdata/switchyard.py:_get_step_number"]}
{"id": "C21", "title": "Genesis export is centred and complete", "statement": "The genesis file written for a species states the number of particles in SIZE, has one row per particle in order with unchanged x, ux, y, uy, pt, and its times differ from ct/c by one common constant and have mean zero.", "quantifier": "for all non-empty particle arrays", "why_tests_cant": "Continuous domain, unbounded particle number.", "anchors": ["rsbeams/rsdata/switchyard.py:Switchyard.write_genesis"]}
{"id": "C22", "title": "Flattening a beamline lists every element once per use in order", "statement": "get_beamline_elements() yields the elements of the beamline, with nested beamlines replaced by their elements at their place, to any depth.", "quantifier": "for all finite nestings of beamlines", "why_tests_cant": "Unbounded nesting depth.", "anchors": ["rsbeams/rslattice/Beamline.py:StructuredBeamline.length", "rsbeams/rslattice/Beamline.py:StructuredBeamline.get_beamline_elements"]}
{"id": "C23", "title": "Beamline length is additive", "statement": "length equals the sum of the L parameters of the flattened elements (elements without L count as zero), hence the length of a beamline is the sum of the lengths of its parts.", "quantifier": "for all beamlines", "why_tests_cant": "Unbounded structures and continuous values.", "anchors": ["rsbeams/rslattice/Beamline.py:StructuredBeamline.length"]}
{"id": "C24", "title": "Element edge position", "statement": "element.edge is the distance from the start of the whole beamline to the upstream edge of the element.", "quantifier": "for all beamlines (true for elements used once; for an element used several times it is the position of the first use, so two uses cannot be told apart)", "why_tests_cant": "Depends on sharing of element objects in arbitrary nestings.", "anchors": ["rsbeams/rslattice/Element.py:Element.edge", "rsbeams/rslattice/Beamline.py:StructuredBeamline.get_beamline_elements"]}
{"id": "C25", "title": "One name, one element definition", "statement": "In one beamline object all uses of an element name share one definition: adding a name again appends another use of the first definition and ignores the new type and parameters, and editing one use edits all.", "quantifier": "for all sequences of add_element and edit_element calls", "why_tests_cant": "A statement on all histories of calls.", "anchors": ["rsbeams/rslattice/Beamline.py:StructuredBeamline.add_element", "rsbeams/rslattice/Beamline.py:StructuredBeamline.edit_element"]}
{"id": "C26", "title": "Element parameter names are case insensitive", "statement": "Setting an element parameter under a name and reading it with [] under any upper/lower case spelling of that name returns the last value set, whatever other parameters were set in between.", "quantifier": "for all sequences of updates and all spellings (false for .get() and the in operator, which only find the lower case spelling)", "why_tests_cant": "All histories and all spellings.", "anchors": ["rsbeams/rslattice/Element.py:AgnosticDict"]}
{"id": "C27", "title": "YAML save and load preserve the beamline", "statement": "Loading a file written by save_beamline into an empty StructuredBeamline gives the same flattened list of elements (names, types, parameters).", "quantifier": "for all beamlines (true for beamlines without sub-beamlines and with one definition per name; false with sub-beamlines, which are all merged into one)", "why_tests_cant": "The failure needs at least two sub-beamlines; the success claim is for all flat beamlines.", "anchors": ["rsbeams/rslattice/Beamline.py:StructuredBeamline.save_beamline", "rsbeams/rslattice/Beamline.py:StructuredBeamline.load_beamline"]}
{"id": "C28", "title": "Transfer matrix of a beamline", "statement": "generate_matrix() returns the product of the element matrices in beam order (first element rightmost) with each element's own parameter values inserted.", "quantifier": "for all beamlines and parameter values (the order is right; the values are never inserted, because the symbols are upper case and the stored parameter names lower case)", "why_tests_cant": "All beamlines; the claim is an identity of matrices with symbolic entries.", "anchors": ["rsbeams/rslattice/Beamline.py:StructuredBeamline.generate_matrix", "rsbeams/rslattice/Element.py:AgnosticDict"]}
{"id": "C29", "title": "RPN expressions evaluate correctly", "statement": "parse_rpn on the reverse Polish form of an arithmetic expression built from numbers, pi, +, -, *, / and sqrt returns the value of that expression; non-numeric text is rejected with ValueError.", "quantifier": "for all expression trees", "why_tests_cant": "Unbounded expression size.", "anchors": ["rsbeams/rslattice/lte_parser.py:parse_rpn"]}
{"id": "C30", "title": "Repetition factors expand to repeated elements", "statement": "A line definition containing n*name is read as n consecutive uses of name, for every item of the line.", "quantifier": "for all item lists and all factors n >= 1", "why_tests_cant": "Unbounded lists and factors; the expansion rewrites the text while scanning it.", "anchors": ["rsbeams/rslattice/lte_parser.py:BeamlineParser._expand_line"]}
{"id": "C31", "title": "Parsed elegant line has the right element sequence", "statement": "Parsing an .lte file gives a beamline whose flattened element names are those of the line with all sub-lines expanded.", "quantifier": "for all line definitions (true when every sub-line is used at most once; false when a sub-line is used twice, each use then contains the elements of both)", "why_tests_cant": "Arbitrary nesting and sharing of lines.", "anchors": ["rsbeams/rslattice/lte_parser.py:BeamlineParser.parse_set_beamline", "rsbeams/rslattice/Beamline.py:StructuredBeamline.add_beamline"]}
{"id": "C32", "title": "Comments in a lattice file are ignored", "statement": "Removing comment lines and end-of-line comments from an .lte file does not change what the parser sees when the line is parsed.", "quantifier": "for all lattice texts (false: a comment as the last line raises IndexError)", "why_tests_cant": "All texts; the loop mutates the list while walking over it.", "anchors": ["rsbeams/rslattice/lte_parser.py:BeamlineParser._sanitize_lattice_definition"]}
{"id": "C33", "title": "Stored variables are substituted as whole names", "statement": "A variable defined with '% expr sto name' replaces uses of that name in element definitions and nothing else.", "quantifier": "for all lattice texts and variable names (false: the name is also replaced inside longer words, and not replaced at the start of a line)", "why_tests_cant": "Text containment of one name in another.", "anchors": ["rsbeams/rslattice/lte_parser.py:BeamlineParser._replace_stored_variables"]}
{"id": "C34", "title": "Element definitions are parsed field by field", "statement": "For a definition 'name: type, k1=v1, k2=v2, ...' the parser returns the type and exactly the given key/value pairs.", "quantifier": "for all lists of parameters with plain keys and values (false for a definition without parameters that does not end in a newline: the last letter of the type is lost)", "why_tests_cant": "Unbounded parameter lists and arbitrary texts.", "anchors": ["rsbeams/rslattice/lte_parser.py:BeamlineParser._find_parameters"]}
{"id": "C35", "title": "TRACE 3-D numbers are read correctly", "statement": "Every number in an element line is read with its sign and exponent.", "quantifier": "for all decimal numbers (false: integers lose their minus sign and numbers with exponents are split)", "why_tests_cant": "All numerals.", "anchors": ["rsbeams/rslattice/trace3d_parser.py:Trace3d.get_element_parameters"]}
{"id": "C36", "title": "No element of a TRACE 3-D file is lost", "statement": "The parsed beamline has one element per 'cmt' entry of the file.", "quantifier": "for all files (false: the last entry is always dropped)", "why_tests_cant": "All files.", "anchors": ["rsbeams/rslattice/trace3d_parser.py:Trace3d.find_beamlines", "rsbeams/rslattice/trace3d_parser.py:Trace3d.parse_set_beamline"]}
{"id": "C37", "title": "Cavity phases are kept apart", "statement": "After parsing, each rf gap has its own phase, and merging drifts into cavities preserves the total length.", "quantifier": "for all beamlines with distinct drifts (length claim true; phase claim false: every cavity ends with the phase of the last one)", "why_tests_cant": "All beamlines with any number of cavities.", "anchors": ["rsbeams/rslattice/trace3d_parser.py:Trace3d.handle_cavities"]}
{"id": "C38", "title": "Sirepo JSON import gives the right element sequence", "statement": "Importing a lattice gives a beamline whose flattened elements are those of the JSON beamline with nested lines expanded and lines with a negative id reversed.", "quantifier": "for all lattice graphs (true when no line is repeated and reversed lines contain elements only; false when a line is used twice or a reversed line contains a line)", "why_tests_cant": "Arbitrary nesting, sharing and reversal.", "anchors": ["rsbeams/rslattice/templates/lattice_importer.py:parse_json", "rsbeams/rslattice/templates/lattice_importer.py:generate_beamline"]}
{"id": "C39", "title": "Warp lattice file defines each name once and before use", "statement": "The file written by WarpWriter contains exactly one definition per distinct upper case element name, all before the line that uses them, and the line lists all elements in order.", "quantifier": "for all beamlines of supported elements (false for a second write_file on the same writer, which writes no definitions)", "why_tests_cant": "All beamlines and all call histories.", "anchors": ["rsbeams/rslattice/formatted_writer.py:WarpWriter.write_file"]}
{"id": "C40", "title": "Magnet gradient conversion", "statement": "Converting normalised strengths to field gradients multiplies K_n by the magnetic rigidity, for every multipole order.", "quantifier": "for all strengths and rigidities (true for quadrupoles; false for sextupoles, which are multiplied by the square of the rigidity)", "why_tests_cant": "Continuous domain.", "anchors": ["rsbeams/pkcli/lattice.py:_get_gradient"]}
{"id": "C41", "title": "Kinematic round trip", "statement": "Whatever quantity is given to Converter, the same quantity in its output has the given value.", "quantifier": "for all eight quantities, all physical values (beta in [0,1), gamma >= 1, energy >= mass, non-negative momentum) and all masses > 0, exact real arithmetic", "why_tests_cant": "Continuous domain with square roots; eight cases.", "anchors": ["rsbeams/rsstats/kinematic.py:Converter"]}
{"id": "C42", "title": "Kinematic outputs are consistent", "statement": "The outputs of Converter satisfy gamma^2 (1 - beta^2) = 1, E^2 = p^2 + m^2, E = KE + m, betagamma = beta * gamma, p = m * betagamma and brho = p / c, whichever quantity was given.", "quantifier": "for all eight inputs on their physical domain", "why_tests_cant": "Continuous domain.", "anchors": ["rsbeams/rsstats/kinematic.py:Converter"]}
{"id": "C43", "title": "Kinematic unit independence", "statement": "Giving the same physical input and mass in SI or eV units gives the same beta and gamma; outputs in SI are the eV outputs times the unit factor; reported mass and input value carry the unit they are labelled with.", "quantifier": "for all inputs and unit choices (true for the kinematic outputs; false for the reported mass and input value)", "why_tests_cant": "Eight inputs times eight unit combinations over a continuous domain.", "anchors": ["rsbeams/rsstats/kinematic.py:Converter.__init__", "rsbeams/rsstats/kinematic.py:Converter._unit_convert"]}
{"id": "C44", "title": "Calling a Converter again gives the same answer", "statement": "Calling a Converter object several times returns the same values each time.", "quantifier": "for all inputs and numbers of calls (true for output_unit='eV'; false for 'SI', where each call converts again)", "why_tests_cant": "All inputs, any number of calls.", "anchors": ["rsbeams/rsstats/kinematic.py:Converter.__call__"]}
{"id": "C45", "title": "Exactly one kinematic quantity", "statement": "Converter raises AssertionError unless exactly one of the eight quantities is given and all unit names are 'eV' or 'SI'.", "quantifier": "for all combinations of arguments", "why_tests_cant": "All subsets of arguments and all strings.", "anchors": ["rsbeams/rsstats/kinematic.py:Converter.__init__"]}
{"id": "C46", "title": "Average and variance are the mathematical ones", "statement": "calc_avg6d and calc_variance6d return for each of the six coordinates the arithmetic mean and the population variance of the particles.", "quantifier": "for all arrays with at least one particle, exact arithmetic", "why_tests_cant": "Unbounded particle number; the code uses a running update.", "anchors": ["rsbeams/rsstats/stats6d.py:calc_avg6d", "rsbeams/rsstats/stats6d.py:calc_variance6d"]}
{"id": "C47", "title": "Statistics do not modify the data", "statement": "Calling calc_variance6d, calc_rms6d or calc_correlations6d leaves the particle array unchanged, so calling twice gives the same result.", "quantifier": "for all arrays (false: the first particle is overwritten with the mean)", "why_tests_cant": "Every array; depends on numpy views.", "anchors": ["rsbeams/rsstats/stats6d.py:calc_variance6d", "rsbeams/rsstats/stats6d.py:calc_correlations6d"]}
{"id": "C48", "title": "Centering and normalising", "statement": "After sub_avg6d the average is zero and the variance is unchanged; after normalize_rms6d the rms values are one.", "quantifier": "for all arrays (centering true for all arrays; normalising false because of the overwritten particle)", "why_tests_cant": "Unbounded particle number.", "anchors": ["rsbeams/rsstats/stats6d.py:sub_avg6d", "rsbeams/rsstats/stats6d.py:normalize_rms6d"]}
{"id": "C49", "title": "Correlation matrix", "statement": "calc_correlations6d returns the symmetric matrix of population covariances.", "quantifier": "for all arrays (symmetry and diagonal true; off-diagonal entries lack the contribution of the first particle)", "why_tests_cant": "Unbounded particle number.", "anchors": ["rsbeams/rsstats/stats6d.py:calc_correlations6d"]}
{"id": "C50", "title": "Jacobi eigen solver", "statement": "jacobi_eigen_solver6d keeps the eigenvector matrix orthogonal, keeps the similarity with the input matrix, and when it returns with a diagonal matrix the columns are eigenvectors for the returned eigenvalues.", "quantifier": "for all symmetric matrices and any number of rotations", "why_tests_cant": "Invariant over an unbounded sequence of rotations on a continuous domain.", "anchors": ["rsbeams/rsstats/stats6d.py:jacobi_eigen_solver6d"]}
{"id": "C51", "title": "Significant figures", "statement": "specify_significant_figures rounds to the requested number of significant decimal digits: the result differs from the input by at most half a unit in the last kept digit and keeps the sign.", "quantifier": "for all non-zero numbers and all digit counts", "why_tests_cant": "Continuous domain, all magnitudes.", "anchors": ["rsbeams/rsstats/stats6d.py:specify_significant_figures"]}
{"id": "C52", "title": "Sampling from a distribution", "statement": "For non-negative weights with a positive sum the cumulative table is monotone and ends at one, and the inverted sample of every y in [0,1) is one of the grid points; for y in (0,1) the weight of that point is positive.", "quantifier": "for all weight lists and all y", "why_tests_cant": "Continuous domain, all weight lists.", "anchors": ["rsbeams/rsstats/sample.py:_calculate_cdf", "rsbeams/rsstats/sample.py:sample"]}
{"id": "C53", "title": "Twiss matched distributions", "statement": "make_twiss_dist_6d maps a distribution with unit second moments in a phase plane to one with second moments emittance*[[beta,-alpha],[-alpha,gamma]].", "quantifier": "for all alpha, beta > 0 and emittance > 0 (true except when gamma equals beta and alpha is negative, where the sign of alpha is flipped)", "why_tests_cant": "Continuous domain; the exceptional set has measure zero.", "anchors": ["rsbeams/rsptcls/RsDistrib6D.py:RsDistrib6D.make_twiss_dist_6d"]}
{"id": "C54", "title": "Twiss parameters from moments", "statement": "calc_twiss6d recovers alpha, beta and emittance from second moments emittance*[[beta,-alpha],[-alpha,gamma]] and refuses matrices with a non-positive determinant.", "quantifier": "for all alpha, beta > 0, emittance > 0", "why_tests_cant": "Continuous domain.", "anchors": ["rsbeams/rsptcls/RsDistrib6D.py:RsDistrib6D.calc_twiss6d"]}
{"id": "C55", "title": "Twiss functions of a bunch stay consistent", "statement": "After any sequence of alpha and beta assignments, gammax = (1+alphax^2)/betax and gammay = (1+alphay^2)/betay, and reading betay returns the value assigned to betay.", "quantifier": "for all sequences of assignments (consistency true; reading betay false: it returns betax)", "why_tests_cant": "All histories of assignments.", "anchors": ["rsbeams/rsptcls/bunch.py:StandardBunch", "rsbeams/rsptcls/bunch.py:NonlinearBunch"]}
{"id": "C56", "title": "KV beam lies on the energy shell", "statement": "Every particle made by distribute_KV has Courant-Snyder invariant sum equal to the emittance.", "quantifier": "for all random draws, Twiss parameters with beta > 0 and particle numbers", "why_tests_cant": "Random draws over a continuous domain.", "anchors": ["rsbeams/rsptcls/bunch.py:StandardBunch.distribute_KV"]}
{"id": "C57", "title": "Quiet start is centred", "statement": "With quiet start the centroid of each transverse coordinate is exactly zero, and generation succeeds exactly when the particle number is a multiple of four.", "quantifier": "for all random draws and particle numbers", "why_tests_cant": "Random draws and unbounded particle number.", "anchors": ["rsbeams/rsptcls/bunch.py:StandardBunch.distribute_KV", "rsbeams/rsptcls/bunch.py:StandardBunch.exact_centroids"]}
{"id": "C58", "title": "Elliptic potential is well defined and symmetric", "statement": "The nonlinear potential evaluates without leaving the domain of its square roots and inverse functions away from the two singular points, and is even in x and in y.", "quantifier": "for all real x, y, c > 0, t", "why_tests_cant": "Continuous domain.", "anchors": ["rsbeams/rsptcls/bunch.py:NonlinearBunch.compute_potential"]}
{"id": "C59", "title": "Nonlinear insert follows the drift beta function", "statement": "The slices of a NonlinearInsert are symmetric about its centre, and beta at each slice obeys the drift law beta(s) = beta* + (s - s*)^2 / beta* and is positive.", "quantifier": "for all lengths > 0, all phase advances that are not multiples of one half and all slice numbers", "why_tests_cant": "Continuous domain with trigonometric functions.", "anchors": ["rsbeams/rslattice/nonlinear.py:NonlinearInsert.generate_sequence"]}
{"id": "C60", "title": "Phase advance between two points", "statement": "phase_advance(p1, p2) returns the angle of the clockwise rotation that takes the direction of p1 to that of p2, in [0, 2 pi).", "quantifier": "for all non-zero points", "why_tests_cant": "Continuous domain with branch cuts.", "anchors": ["rsbeams/rsptcls/phases.py:phase_advance"]}
{"id": "C61", "title": "Tune from FFT", "statement": "The tune returned by the FFT method lies in [0, 1/2], and for a pure oscillation cos(2 pi k j / n + phi) with 0 < k < n/2 it is k/n.", "quantifier": "for all signals (range), all n, k, phi (pure tone)", "why_tests_cant": "All signal lengths and phases.", "anchors": ["rsbeams/rsptcls/phases.py:tune_fft"]}
{"id": "C62", "title": "Decoherence closed form", "statement": "The first order centroid formula equals the integral it replaces, and at turn zero the centroid is the initial offset.", "quantifier": "for all turn numbers and lattice parameters", "why_tests_cant": "An identity between an integral and a closed form for all parameters.", "anchors": ["rsbeams/rsphysics/decoherence.py:CentroidPosition.calculate_centroids"]}
{"id": "C63", "title": "SDDS symbol formatting", "statement": "format_symbol leaves text without markup unchanged inside $...$, and produces balanced braces when the subscripts and superscripts of the input are closed.", "quantifier": "for all strings", "why_tests_cant": "All strings; the formatter is a state machine.", "anchors": ["rsbeams/rsplot/util.py:format_symbol"]}
{"id": "C64", "title": "Magnet profile covers the beamline", "statement": "The rectangles drawn by plot_profile for consecutive elements have the element positions as edges and do not overlap.", "quantifier": "for all monotone position lists", "why_tests_cant": "All lists.", "anchors": ["rsbeams/rsplot/util.py:plot_profile"]}
{"id": "C65", "title": "Current profile integrates to the charge", "statement": "The current histogram from get_current_from_t times the bin length sums to the total charge.", "quantifier": "for all particle times that are not all equal and all bin numbers", "why_tests_cant": "All samples.", "anchors": ["rsbeams/rsplot/util.py:get_current_from_t"]}
{"id": "C66", "title": "Scatter plot axes contain all points", "statement": "The symmetric axis limits used by the phase space scatter plots contain every particle.", "quantifier": "for all non-empty particle lists", "why_tests_cant": "All lists.", "anchors": ["rsbeams/rsplot/RsScatterPS6D.py"]}
{"id": "C67", "title": "Element matrices describe the motion", "statement": "The drift and quadrupole matrices solve the linear equations of motion from the identity at length zero (K1 > 0 focusing in the first plane), cutting an element in two changes nothing, and the matrix of every beamline is symplectic.", "quantifier": "for all strengths K1 not 0, lengths and beamlines", "why_tests_cant": "Identities of functions on continuous parameters and for beamlines of any length.", "anchors": ["rsbeams/rslattice/Beamline.py:StructuredBeamline.matrices", "rsbeams/rslattice/Beamline.py:StructuredBeamline.generate_matrix"]}
{"id": "C68", "title": "Comments of TRACE files are ignored", "statement": "After cleaning, exactly the text outside comments remains, line by line in its order; comments never make a file unreadable.", "quantifier": "for all files (false: a file that ends with a comment line cannot be read)", "why_tests_cant": "All arrangements of comments, blank lines and text.", "anchors": ["rsbeams/rslattice/trace3d_parser.py:BeamlineParser._sanitize_lattice_definition"]}
{"id": "C69", "title": "The frequency of a TraceWin file is used", "statement": "Cavities behind a FREQ line carry the frequency of that line.", "quantifier": "for all files (false: no FREQ line is ever recognised, because the key differs in case)", "why_tests_cant": "All files.", "anchors": ["rsbeams/rslattice/trace3d_parser.py:TraceWin.handle_freq", "rsbeams/rslattice/trace3d_parser.py:TraceWin.handle_dtl_cell", "rsbeams/rslattice/trace3d_parser.py:TraceWin.handle_ncells"]}
{"id": "C70", "title": "Element names of TraceWin files are distinct", "statement": "Every line of a TraceWin file gives elements with names that no other line uses, in the order of the lines.", "quantifier": "for all files", "why_tests_cant": "All files of any length.", "anchors": ["rsbeams/rslattice/trace3d_parser.py:TraceWin.get_element_name"]}
{"id": "C71", "title": "A DTL cell keeps its length", "statement": "The quadrupoles and the cavity made from a DTL_CEL line have the total length of the cell, and no other line changes the length of the beamline.", "quantifier": "for all cells", "why_tests_cant": "All real lengths.", "anchors": ["rsbeams/rslattice/trace3d_parser.py:TraceWin.handle_dtl_cell"]}
{"id": "C72", "title": "Warp gradients belong to the central momentum", "statement": "elegant_to_warp writes quadrupole gradients equal to K1 times the rigidity of the central momentum of the elegant run, up to the sign of the charge.", "quantifier": "for all lattices and momenta (false for every beam: the momentum is used as the total energy)", "why_tests_cant": "Continuous domain; the error is small for high energies.", "anchors": ["rsbeams/pkcli/lattice.py:elegant_to_warp", "rsbeams/pkcli/lattice.py:_parameter_conversions"]}
{"id": "C73", "title": "Supported element types are converted", "statement": "elegant_to_warp writes a file for every lattice whose elements have types that the Warp writer supports and carry their elegant parameters.", "quantifier": "for all lattices (false for six bend and sextupole types, which never get the parameter that the writer asks for)", "why_tests_cant": "All combinations of element types.", "anchors": ["rsbeams/pkcli/lattice.py:_parameter_conversions", "rsbeams/rslattice/formatted_writer.py:WarpWriter.write_file"]}
{"id": "C74", "title": "Writing without a name writes the first registered species", "statement": "Switchyard.write(filename, code) without species_name writes the species that was registered first, as its documentation says.", "quantifier": "for all registries and codes (false when the first species was registered under a name of its own)", "why_tests_cant": "Quantifies over all registries; tests register one species without a name.", "anchors": ["rsbeams/rsdata/switchyard.py:Switchyard.write"]}
{"id": "C75", "title": "OPAL total charge", "statement": "The total charge of a species read from an OPAL file is the attribute TotalCharge of the step if present, otherwise CHARGE.", "quantifier": "for all files and steps (false for a TotalCharge of zero)", "why_tests_cant": "All attribute values; the exceptional value is a truth value accident.", "anchors": ["rsbeams/rsdata/switchyard.py:read_opal"]}
{"id": "C76", "title": "Momentum conventions of imported particles", "statement": "After reading an elegant or OPAL file, pt is the total momentum and ux, uy are the transverse momenta of the particle, as the class documents.", "quantifier": "for all files and particles (false for every particle with transverse momentum)", "why_tests_cant": "Continuous domain; an identity between several columns of the file.", "anchors": ["rsbeams/rsdata/switchyard.py:read_elegant", "rsbeams/rsdata/switchyard.py:read_opal"]}
{"id": "C77", "title": "OPAL text export is complete", "statement": "The file written for OPAL has the number of particles in its first line and then one line per particle in order, with its six coordinates in order.", "quantifier": "for all particle arrays", "why_tests_cant": "Unbounded number of particles.", "anchors": ["rsbeams/rsdata/switchyard.py:Switchyard.write_opal"]}
{"id": "C78", "title": "The kind of particle survives the elegant round trip", "statement": "A species written for elegant and read back has the same charge and mass.", "quantifier": "for all species (false unless they are electrons)", "why_tests_cant": "All masses and charges.", "anchors": ["rsbeams/rsdata/switchyard.py:read_elegant", "rsbeams/rsdata/switchyard.py:Switchyard.write_elegant"]}
{"id": "C79", "title": "Arguments reach the distribution function", "statement": "The args of cdf_on_grid and sample are passed to the distribution function after the grid.", "quantifier": "for all distribution functions and argument values (false for the number zero, which is dropped)", "why_tests_cant": "All functions and values.", "anchors": ["rsbeams/rsstats/sample.py:cdf_on_grid"]}
{"id": "C80", "title": "Shape and range of samples", "statement": "sample(n, ...) returns an array of n points between a and b for both methods, and refuses unknown methods and kinds of inversion.", "quantifier": "for all distributions, grids and drawn numbers (false for halton: the array has two dimensions; interpolation not modelled)", "why_tests_cant": "Continuous domain, all distributions.", "anchors": ["rsbeams/rsstats/sample.py:sample"]}
{"id": "C81", "title": "elegant files without a charge", "statement": "A file without a parameter Charge is read with total charge zero.", "quantifier": "for all binary files with one page and at least two particles", "why_tests_cant": "Unbounded domain of files.", "anchors": ["rsbeams/rsdata/switchyard.py:read_elegant"]}
{"id": "C82", "title": "New random distributions", "statement": "make_unif_distrib and make_gauss_distrib create the requested number of particles, inside the unit balls or below max_rms_fac standard deviations before cleaning; the constructor refuses wrong arguments with its own message.", "quantifier": "for all numbers of particles, factors and sequences of drawn numbers (the Gaussian cut compares the square with the factor; unknown kinds raise AttributeError)", "why_tests_cant": "Random sequences; unbounded domain.", "anchors": ["rsbeams/rsptcls/RsDistrib6D.py:make_unif_distrib", "rsbeams/rsptcls/RsDistrib6D.py:make_gauss_distrib"]}
{"id": "C83", "title": "Cleaning of a distribution", "statement": "After clean_phase_space_6d the averages are zero, the variances one and the covariances zero.", "quantifier": "for all arrays of particles without a degenerate direction (true exactly when the first particle was at the average before)", "why_tests_cant": "Continuous domain; the deviation is small for many particles.", "anchors": ["rsbeams/rsptcls/RsDistrib6D.py:clean_phase_space_6d"]}
{"id": "C84", "title": "Relativistic factors of the design particle", "statement": "gamma0 is at least one, beta0 has absolute value below one, their product is the momentum over the mass and gamma0^2 (1 - beta0^2) = 1.", "quantifier": "for all momenta and positive masses", "why_tests_cant": "Continuous domain.", "anchors": ["rsbeams/rsptcls/RsPtclBeam6D.py:get_gamma0", "rsbeams/rsptcls/RsPtclBeam6D.py:get_beta0"]}
{"id": "C85", "title": "Offsets and factors of one component", "statement": "offset_component moves one average and no second moment; multiply_component scales the second moments of one component; other indices are refused.", "quantifier": "for all arrays, numbers and indices", "why_tests_cant": "Continuous domain.", "anchors": ["rsbeams/rsptcls/RsDistrib6D.py:offset_component", "rsbeams/rsptcls/RsDistrib6D.py:multiply_component"]}
{"id": "C86", "title": "Arguments of set_transverse_coordinates are stored", "statement": "The values given to set_transverse_coordinates (emittances, alpha and beta of both planes, cutoff) are the values of the attributes afterwards; values not given stay.", "quantifier": "for all bunches and arguments (false for betay, which is stored as betax, and for cutoff, which raises NameError)", "why_tests_cant": "All combinations of arguments over the reals.", "anchors": ["rsbeams/rsptcls/bunch.py:StandardBunch.set_transverse_coordinates", "rsbeams/rsptcls/bunch.py:NonlinearBunch.set_transverse_coordinates"]}
{"id": "C87", "title": "Beta functions are positive", "statement": "No bunch ever has a beta function that is negative or zero.", "quantifier": "for all constructor arguments and histories of assignments (false: the constructor does not check, and zero is stored before the division fails)", "why_tests_cant": "All histories of assignments.", "anchors": ["rsbeams/rsptcls/bunch.py:StandardBunch.__init__", "rsbeams/rsptcls/bunch.py:StandardBunch.betax"]}
{"id": "C88", "title": "KV beam has the planar emittance that was asked for", "statement": "The rms emittance of a matched KV bunch is emitx in both planes.", "quantifier": "for all draws, Twiss parameters and particle numbers (false: twice as large)", "why_tests_cant": "Random draws over a continuous domain.", "anchors": ["rsbeams/rsptcls/bunch.py:StandardBunch.distribute_KV"]}
{"id": "C89", "title": "Gaussian bunch is matched", "statement": "With ideal random numbers the second moments of distribute_Gaussian are emit*beta, -emit*alpha and emit*gamma in both planes.", "quantifier": "for all Twiss parameters, emittances and drawn numbers (false unless alpha is zero)", "why_tests_cant": "Continuous domain.", "anchors": ["rsbeams/rsptcls/bunch.py:StandardBunch.distribute_Gaussian"]}
{"id": "C90", "title": "Energies of nonlinear bunches", "statement": "Every particle of a generalised KV bunch has energy emitx in the elliptic potential; of a waterbag bunch at most emit; of a truncated Gaussian bunch at most cutoff*emit; emit is the same afterwards.", "quantifier": "for all random draws, Twiss parameters, t and c > 0, particle numbers and results of the root finder", "why_tests_cant": "Random draws over a continuous domain and an unknown root finder.", "anchors": ["rsbeams/rsptcls/bunch.py:NonlinearBunch.distribute_KV", "rsbeams/rsptcls/bunch.py:NonlinearBunch.distribute_waterbag", "rsbeams/rsptcls/bunch.py:NonlinearBunch.distribute_Gaussian"]}
{"id": "C91", "title": "Emittances given to a nonlinear bunch are used", "statement": "The emittances given to NonlinearBunch.set_transverse_coordinates determine the size of the bunch.", "quantifier": "for all arguments (false for waterbag and Gaussian)", "why_tests_cant": "All arguments over the reals.", "anchors": ["rsbeams/rsptcls/bunch.py:NonlinearBunch.set_transverse_coordinates"]}
{"id": "C92", "title": "Quiet start of a nonlinear bunch", "statement": "A NonlinearBunch built with the quiet argument set uses a quiet start.", "quantifier": "for all arguments (false)", "why_tests_cant": "All arguments.", "anchors": ["rsbeams/rsptcls/bunch.py:NonlinearBunch.__init__"]}
{"id": "C93", "title": "Columns are written independently", "statement": "set_longitudinal_coordinates changes only the two longitudinal columns, and after any calls the identifiers are 0 to npart-1.", "quantifier": "for all sequences of method calls, arguments and draws", "why_tests_cant": "All histories of calls.", "anchors": ["rsbeams/rsptcls/bunch.py:StandardBunch.set_longitudinal_coordinates", "rsbeams/rsptcls/bunch.py:StandardBunch.set_transverse_coordinates"]}
{"id": "C94", "title": "Phase advance of the nonlinear insert", "statement": "The beta function of the generated insert has a phase advance of 2 pi times the requested phase over the insert.", "quantifier": "for all lengths and phases between 0 and 1 (false between one half and one, where it is 2 pi (1 - phase))", "why_tests_cant": "An integral over the insert for all real phases.", "anchors": ["rsbeams/rslattice/nonlinear.py:NonlinearInsert.generate_sequence"]}
{"id": "C95", "title": "Aperture parameter of the insert and its MAD-X elements", "statement": "The aperture parameter c can be assigned after construction, and the MAD-X sequence has one nllens element per slice with the strength and aperture of the slice, in order.", "quantifier": "for all inserts (assignment: false, the setter never stores the value)", "why_tests_cant": "All inserts and slice numbers.", "anchors": ["rsbeams/rslattice/nonlinear.py:NonlinearInsert.c", "rsbeams/rslattice/nonlinear.py:NonlinearInsert.create_madx"]}
{"id": "C96", "title": "Centroids up to turn N", "statement": "calculate_centroids returns the centroid at all turns up to N, as documented.", "quantifier": "for all N and coefficients (false: turn N is missing)", "why_tests_cant": "Quantifies over all turn numbers and coefficients.", "anchors": ["rsbeams/rsphysics/decoherence.py:CentroidPosition.calculate_centroids"]}
{"id": "C97", "title": "Centroid stays within the offset", "statement": "The centroid is never further from the axis than the initial offset; without tune spread it oscillates with the linear tune, and with linear tune spread it decays at least as one over the turn number.", "quantifier": "for all turn numbers, tunes and coefficients", "why_tests_cant": "Bounds on integrals for all real parameters.", "anchors": ["rsbeams/rsphysics/decoherence.py:CentroidPosition.integrate_any_order", "rsbeams/rsphysics/decoherence.py:CentroidPosition.integrate_first_order"]}
{"id": "C98", "title": "Strength and aperture of a nonlinear bunch", "statement": "The strength t and the aperture parameter c of a nonlinear bunch are always positive; a refused assignment leaves the bunch unchanged and an accepted one is stored.", "quantifier": "for all constructor arguments and histories of assignments (false: the constructor does not check and zero is accepted)", "why_tests_cant": "All histories of assignments.", "anchors": ["rsbeams/rsptcls/bunch.py:NonlinearBunch.c", "rsbeams/rsptcls/bunch.py:NonlinearBunch.t"]}
{"id": "C99", "title": "Total emittance of a bunch", "statement": "The attribute emit of a Gaussian bunch is the sum of the emittances of the two planes.", "quantifier": "for all bunches and histories of assignments and calls of set_transverse_coordinates (false after a call that changes the emittances)", "why_tests_cant": "All histories over the reals.", "anchors": ["rsbeams/rsptcls/bunch.py:StandardBunch.__init__", "rsbeams/rsptcls/bunch.py:StandardBunch.set_transverse_coordinates"]}
{"id": "C100", "title": "One formula per symbol", "statement": "The result of format_symbol for matplotlib begins and ends with a dollar sign and has no other dollar sign, so that it is exactly one formula.", "quantifier": "for all symbols that are formatted without an exception", "why_tests_cant": "All strings; the formatter is a state machine.", "anchors": ["rsbeams/rsplot/util.py:format_symbol"]}
{"id": "C101", "title": "Control words of a symbol", "statement": "The TeX control words in the result of format_symbol are the names of the Greek and special letters of the symbol, in order.", "quantifier": "for all symbols (false: a roman letter after a Greek one becomes part of the control word)", "why_tests_cant": "All strings.", "anchors": ["rsbeams/rsplot/util.py:format_symbol"]}
{"id": "C102", "title": "Colours of the magnet profile", "statement": "plot_profile draws every magnet in the colour of its kind and, besides the magnets, only one line under them.", "quantifier": "for all beamlines and scales (false for scales other than one: further lines are drawn)", "why_tests_cant": "All beamlines and real scales.", "anchors": ["rsbeams/rsplot/util.py:plot_profile", "rsbeams/rsplot/util.py:invert_mapping"]}
{"id": "C103", "title": "Histogram counts", "statement": "get_histogram_points gives for each of n equal bins the middle of the bin and the number of data in it; the counts sum to the number of data.", "quantifier": "for all data and bin numbers", "why_tests_cant": "All real data; the last bin is closed and the others are half open.", "anchors": ["rsbeams/rsplot/util.py:get_histogram_points"]}
{"id": "C104", "title": "Charge of the longitudinal plot", "statement": "The longitudinal phase space plot uses the given charge, else the charge in the file, else counts with largest value one.", "quantifier": "for all times and charges (false: without a charge in the file ValueError is raised)", "why_tests_cant": "All real times.", "anchors": ["rsbeams/rsplot/beam_plots.py:longitudinal_phase_space"]}
{"id": "C105", "title": "Axis labels are kept", "statement": "A label set for a coordinate is read back, and the other labels stay.", "quantifier": "for all labels and coordinates (false: labels are cut off after five characters)", "why_tests_cant": "All strings.", "anchors": ["rsbeams/rsplot/RsScatterPS6D.py:RsScatterPS6D.set_label", "rsbeams/rsplot/RsScatterPS6D.py:RsScatterPS6D.get_label"]}
{"id": "C106", "title": "Contour levels cover the field", "statement": "gen_contour_levels gives as many equidistant levels as asked for, symmetric up to one step, that reach from below the field to above it.", "quantifier": "for all fields (false for small fields and for constant fields)", "why_tests_cant": "All real fields.", "anchors": ["rsbeams/rsplot/plot_ptcls.py:gen_contour_levels"]}
{"id": "C107", "title": "Fields of ASCII files have the names of the header", "statement": "Whatever the data of an ASCII SDDS file are, every record of parameters and columns has exactly the field names that the header gives, in that order.", "quantifier": "for all headers, data, buffer modes and page selections (false for names with blanks and for return, file and print, which genfromtxt changes)", "why_tests_cant": "All names and all data.", "anchors": ["rsbeams/rsdata/SDDS.py:readSDDS._get_parameter_data", "rsbeams/rsdata/SDDS.py:readSDDS._get_column_data", "rsbeams/rsdata/struct_data.py:StructData._merge"]}
{"id": "C108", "title": "An ASCII file that was saved is read back", "statement": "Saving parameters and columns with save_sdds in ASCII mode and reading the file gives the same parameters and the same table, also with columns of different types.", "quantifier": "for all parameters and columns (false for a single column of integers, for columns without rows, and without buffer if the first data line has one character)", "why_tests_cant": "All contents; the failing ones are easily missed.", "anchors": ["rsbeams/rsdata/SDDS.py:writeSDDS.save_sdds", "rsbeams/rsdata/SDDS.py:readSDDS.read"]}
{"id": "C109", "title": "The last newline of an ASCII file does not matter", "statement": "Reading an ASCII SDDS file gives the same records or the same exception with and without a newline at its end.", "quantifier": "for all headers, data bytes, conversions, buffer modes and page selections", "why_tests_cant": "All files, also damaged ones.", "anchors": ["rsbeams/rsdata/SDDS.py:readSDDS.read", "rsbeams/rsdata/SDDS.py:readSDDS._get_reader", "rsbeams/rsdata/SDDS.py:readSDDS._get_position"]}
{"id": "C110", "title": "Ragged ASCII tables are refused", "statement": "If a row of an ASCII table has not as many words as there are columns, reading the file raises ValueError.", "quantifier": "for all headers, tables and pages before the damaged one (false if all rows have the same larger number of words: those after the last column are ignored)", "why_tests_cant": "All tables and all ways of damaging one; the tolerated ones are silent.", "anchors": ["rsbeams/rsdata/SDDS.py:readSDDS._get_column_data"]}
{"id": "C111", "title": "Density pictures count particles", "statement": "In the density pictures of a bunch, the number drawn in each cell is the number of particles whose coordinates lie in that cell, every particle is counted once, all lie within the borders, and the borders are at the outermost particles.", "quantifier": "for all bunches and numbers of bins; no bins are refused with ValueError", "why_tests_cant": "All particle distributions, including particles exactly on cell boundaries.", "anchors": ["rsbeams/rsplot/beam_plots.py:phase_space", "rsbeams/rsplot/beam_plots.py:longitudinal_phase_space", "rsbeams/rsplot/beam_plots.py:phase_space_projection"]}
{"id": "C112", "title": "Projections agree with the picture", "statement": "The curves at the side of and below a density picture are its projections: the points of the curve that lie over a column (row) of cells add up to the sum of the numbers in that column (row).", "quantifier": "for all bunches; for the current, with the charge per particle and the width of a time bin as factors", "why_tests_cant": "All particle distributions; picture and curves are computed by different calls.", "anchors": ["rsbeams/rsplot/beam_plots.py:phase_space_projection", "rsbeams/rsplot/beam_plots.py:longitudinal_phase_space", "rsbeams/rsplot/util.py:histogram_points"]}
{"id": "C113", "title": "The four phase space pictures show what their labels say", "statement": "phase_space draws x and x', y and y', x and y in mm and mrad, and time (ps, relative to the mean) against the relative momentum deviation.", "quantifier": "for all bunches and numbers of bins (false if the momenta average to zero: ValueError)", "why_tests_cant": "All bunches; the failing ones divide by zero silently.", "anchors": ["rsbeams/rsplot/beam_plots.py:phase_space"]}
{"id": "C114", "title": "Particle number and array of a phase space agree", "statement": "After any sequence of calls on an RsPhaseSpace6D object the stored number of particles is the number of columns of the 6 by N array.", "quantifier": "for all sequences of setters, reads and writes (false after set_array_6d with another number of particles, and after reading a file of another shape)", "why_tests_cant": "All call histories.", "anchors": ["rsbeams/rsptcls/RsPhaseSpace6D.py:RsPhaseSpace6D"]}
{"id": "C115", "title": "A phase space that was written is read back", "statement": "Reading the .npz file that an RsPhaseSpace6D object wrote gives the array and its number of particles, whatever was done in between by an object that did not write under the same name; reading a file that is not there raises and leaves the object unchanged.", "quantifier": "for all objects, arrays of shape 6 by N, histories and names", "why_tests_cant": "All histories and names.", "anchors": ["rsbeams/rsptcls/RsPhaseSpace6D.py:RsPhaseSpace6D.write_array", "rsbeams/rsptcls/RsPhaseSpace6D.py:RsPhaseSpace6D.read_array"]}
{"id": "C116", "title": "Peak current", "statement": "get_peak_current_rms returns charge times velocity over rms bunch length, the velocity being that of the design momentum and mass, and asking again gives the same answer.", "quantifier": "for all bunches with positive mass and bunch length (asking again is false unless the first particle is at the mean)", "why_tests_cant": "All bunches; the side effect on the first particle is invisible in a single call.", "anchors": ["rsbeams/rsptcls/RsPtclBeam6D.py:RsPtclBeam6D.get_peak_current_rms", "rsbeams/rsstats/stats6d.py:calc_variance6d"]}
{"id": "C117", "title": "Coordinate ranges enclose the bunch", "statement": "The minimum and maximum vectors of a distribution are attained and enclose all particles and the average.", "quantifier": "for all bunches; an empty one is refused with ValueError", "why_tests_cant": "All bunches.", "anchors": ["rsbeams/rsstats/stats6d.py:calc_min6d", "rsbeams/rsstats/stats6d.py:calc_max6d"]}
{"id": "C118", "title": "Sampling by interpolation inverts the distribution", "statement": "With invert='interpolate' a drawn number equal to a value of the cumulative distribution gives the grid point that the discrete inversion gives, and all samples lie between a and b.", "quantifier": "for all distributions and drawn numbers (false: numbers below the first value give samples below a; distributions with zeros raise ValueError)", "why_tests_cant": "All distributions and all drawn numbers; the bad ones are rare.", "anchors": ["rsbeams/rsstats/sample.py:sample"]}
{"id": "C119", "title": "Namelists that carry no data change nothing", "statement": "A header with &description, &include or &associate lines at any place is read as the header without them: the same parameters, columns, mode and start of the data, or the same exception; files with &array definitions can be opened.", "quantifier": "for all headers and all places of the lines (false for &array: AttributeError for every such file)", "why_tests_cant": "All headers, all combinations of additional lines.", "anchors": ["rsbeams/rsdata/SDDS.py:readSDDS._parse_header", "rsbeams/rsdata/SDDS.py:readSDDS._read_header", "rsbeams/rsdata/struct_data.py:StructData"]}
{"id": "C120", "title": "Which headers are accepted", "statement": "A header is accepted exactly if every parameter has a fixed value that its type can read or one of the six known types, every column has one of the six known types, string columns have no field_length, and an ASCII header has a parameter or column left to read.", "quantifier": "for all well-formed headers, modes and lengths", "why_tests_cant": "The exact boundary of the accepted headers; all headers.", "anchors": ["rsbeams/rsdata/SDDS.py:readSDDS.__init__", "rsbeams/rsdata/SDDS.py:readSDDS._parse_header", "rsbeams/rsdata/datatypes.py:Datum.parse_namelist"]}
{"id": "C121", "title": "Reading twice gives the same", "statement": "Every call of read leaves the pages it was asked for, whatever was called on the object before.", "quantifier": "for all files and sequences of calls (false: pages of earlier calls stay in front; a failure because of different page lengths is permanent)", "why_tests_cant": "All call histories.", "anchors": ["rsbeams/rsdata/SDDS.py:readSDDS.read", "rsbeams/rsdata/struct_data.py:StructData"]}
{"id": "C122", "title": "The constants of rsconst", "statement": "The module rsphysics.rsconst can be imported and every name in it has the value of its definition: the constants of nature, their CGS values, rest energies in eV and conversion factors.", "quantifier": "for all values of the constants of nature (false: the import raises NameError for all of them, since c_SQ and e are used before they are assigned)", "why_tests_cant": "The import fails in every environment; the values after a repair hold for every order of the assignments.", "anchors": ["rsbeams/rsphysics/rsconst.py"]}
{"id": "C123", "title": "A file that is cut off is refused", "statement": "Reading a binary file that ends within a page raises an exception, wherever the cut is.", "quantifier": "for all files, pages, selections of pages and places of the cut, also within the header (false without buffer: one stray byte is ignored and complete rows of numbers are given without a complaint)", "why_tests_cant": "Every place at which a file may end.", "anchors": ["rsbeams/rsdata/SDDS.py:readSDDS.read", "rsbeams/rsdata/SDDS.py:readSDDS._get_reader", "rsbeams/rsdata/SDDS.py:readSDDS._get_parameter_data", "rsbeams/rsdata/SDDS.py:readSDDS._get_column_data"]}
{"id": "C124", "title": "Quantities of a beamline profile", "statement": "beamline_profile draws one line per requested quantity, over the column s of the chosen page, with the symbol of the column (or its description) as label, and the axis is labelled with all symbols and units in the same order. It succeeds exactly if the page exists and is not empty, has the columns s, ElementType and every quantity, and the symbols and units of the quantities can be formatted.", "quantifier": "for all files, pages and lists of quantities", "why_tests_cant": "Every combination of columns, symbols, units and quantities.", "anchors": ["rsbeams/rsplot/beam_plots.py:beamline_profile", "rsbeams/rsplot/util.py:plot_profile", "rsbeams/rsplot/util.py:format_symbol"]}
{"id": "C125", "title": "Particles shown by scatter_contour", "statement": "A scatter, line or scatter-line plot shows every particle once and in order and gives both axes the scale that plot_type names. A combo plot shows as points exactly the particles outside of the outline of the contours. Contours are drawn for all data.", "quantifier": "for all particles, flags, plot types, divisions, levels and outlines (false: axis ranges always raise, few particles raise, and contour and combo plots never set a scale)", "why_tests_cant": "Every distribution of particles over the cells and every list of levels.", "anchors": ["rsbeams/rsplot/plot_ptcls.py:scatter_contour"]}
{"id": "C126", "title": "Hamiltonian and printed Twiss parameters of a bunch", "statement": "The Hamiltonian of a bunch, at the normalised coordinates of a particle, is half the sum of its two Courant-Snyder invariants and does not change along the linear lattice; for the integrable bunch it adds the elliptic potential, and every particle of a KV bunch has the emittance as its value. The printed Twiss parameters satisfy gamma beta - alpha^2 = 1 in both planes.", "quantifier": "for all bunches, particles, rotations and histories of assignments (false: at the two singular points of the elliptic potential and, for printing, after an assignment to the nonlinear bunch with different alphas)", "why_tests_cant": "All real coordinates and Twiss parameters and histories of any length.", "anchors": ["rsbeams/rsptcls/bunch.py:compute_Hamiltonian", "rsbeams/rsptcls/bunch.py:print_Twiss"]}
{"id": "C127", "title": "Fields and accessors of SDDS data", "statement": "Whatever a binary file holds, every record that read returns has exactly the fields of the header, in order, each with a value of its declared type and texts within max_string_length. The accessors give the parameters of every file and the columns of every file that has columns.", "quantifier": "for all bytes of a binary file, all readers and all sequences of calls of read (false: fields with the name record_length are lost; .columns raises without columns; .arrays always raises)", "why_tests_cant": "All file contents, headers and histories of calls.", "anchors": ["rsbeams/rsdata/struct_data.py:StructData", "rsbeams/rsdata/SDDS.py:_initialize_data_arrays", "rsbeams/rsdata/SDDS.py:columns"]}
{"id": "C128", "title": "Helpers of the SDDS module", "statement": "_return_type gives the type named in a namelist, get_entry_from_parameters gives the value of a parameter by name, and iter_always contains every page number that is asked in order.", "quantifier": "for all texts, parameters, names and pages (false: _return_type gives None for every text; entries other than first fields are not found; a number that was drawn before is searched for ever)", "why_tests_cant": "All texts and all numbers of pages.", "anchors": ["rsbeams/rsdata/utils.py:_return_type", "rsbeams/rsdata/utils.py:get_entry_from_parameters", "rsbeams/rsdata/utils.py:iter_always"]}
{"id": "C129", "title": "Entries of a TRACE 3-D file", "statement": "Every entry of a TRACE 3-D file becomes an element with the name in its comment, the class of its type number and its numbers under the names of that class, converted to SI units; bends get the arc length |radius x angle|.", "quantifier": "for all files of well formed entries with known types and distinct names (false: the last entry is lost, and Trace3d itself has no table of handlers)", "why_tests_cant": "All names, type numbers and lists of numbers.", "anchors": ["rsbeams/rslattice/trace3d_parser.py:Trace3d.get_element_name", "rsbeams/rslattice/trace3d_parser.py:Trace3d.get_element_type", "rsbeams/rslattice/trace3d_parser.py:Trace3d.get_element_parameters", "rsbeams/rslattice/trace3d_parser.py:Trace3d._convert_units", "rsbeams/rslattice/trace3d_parser.py:Trace3d._standardize"]}
{"id": "C130", "title": "Bends take over their edges", "statement": "handle_bends moves the face angles, half the gap and the fringe field integral of the edges around a bend into the bend, removes these edges and changes nothing else.", "quantifier": "for all beamlines of distinct elements (false: two bends with a common edge raise ValueError; a bend at the start takes the last element as its edge)", "why_tests_cant": "All sequences of elements.", "anchors": ["rsbeams/rslattice/trace3d_parser.py:Trace3d.handle_bends"]}
{"id": "C131", "title": "set_beamline chooses the line", "statement": "After set_beamline(name) the next call of the elegant parser gives the beamline called name.", "quantifier": "for all files and names of lines (true before the first call for names in lower case, apart from the title; false for names with capital letters and after the first call)", "why_tests_cant": "All files, all names, all histories of calls.", "anchors": ["rsbeams/rslattice/lte_parser.py:BeamlineParser.set_beamline", "rsbeams/rslattice/lte_parser.py:BeamlineParser.find_beamlines", "rsbeams/rslattice/lte_parser.py:BeamlineParser.parse_set_beamline"]}
{"id": "C132", "title": "The elegant parser can be called again", "statement": "Calling the same parser object again gives a beamline with the elements of the line once.", "quantifier": "for all files and numbers of calls (false: every further call adds the elements of the first line again)", "why_tests_cant": "All files and all histories of calls.", "anchors": ["rsbeams/rslattice/lte_parser.py:BeamlineParser.__call__", "rsbeams/rslattice/lte_parser.py:BeamlineParser.find_beamlines", "rsbeams/rslattice/lte_parser.py:BeamlineParser.parse_set_beamline"]}
{"id": "C133", "title": "Reading a file always ends", "statement": "read(), with or without a list of pages, either returns or raises for every file that could be opened.", "quantifier": "for all files, binary and ASCII, buffered and unbuffered (false for buffered binary files: a negative row count can lead back to the same page for ever)", "why_tests_cant": "Non-termination cannot be observed by a test, and termination must hold for all inputs.", "anchors": ["rsbeams/rsdata/SDDS.py:readSDDS.read", "rsbeams/rsdata/SDDS.py:readSDDS._get_column_data", "rsbeams/rsdata/SDDS.py:readSDDS._check_file_end", "rsbeams/rsdata/SDDS.py:readSDDS._get_ascii_row_count"]}
{"id": "C134", "title": "Elegant files with several pages can be read", "statement": "read_elegant gives a species with the particles of all pages of the file.", "quantifier": "for all files with two or more pages (false for every file whose pages have two or more rows: ValueError)", "why_tests_cant": "All numbers of pages and rows.", "anchors": ["rsbeams/rsdata/switchyard.py:read_elegant"]}
{"id": "C135", "title": "An OPAL step needs one value per particle in every dataset", "statement": "read_opal reads a step exactly if its six datasets have one value for each particle, and gives the particles these values.", "quantifier": "for all files and steps (every such step is read; false the other way round: a single value is given to all particles)", "why_tests_cant": "All lengths of datasets.", "anchors": ["rsbeams/rsdata/switchyard.py:read_opal"]}
{"id": "C136", "title": "The text of converted lattices", "statement": "elegant_to_warp defines every element of the beamline once by the Warp element of its type, with its own length and with the strength times the rigidity to the order of the multipole, or the length over the angle, and fails exactly if one of these values is missing or is not a number, or an angle is zero.", "quantifier": "for all beamlines that are not empty, energies of at least the mass, and formats of numbers", "why_tests_cant": "All lattices; the tests convert none.", "anchors": ["rsbeams/pkcli/lattice.py:_parameter_conversions", "rsbeams/pkcli/lattice.py:elegant_to_warp", "rsbeams/rslattice/formatted_writer.py:WarpWriter.write_file"]}
{"id": "C137", "title": "The command line of the converter", "statement": "The kinematic program accepts a list of settings exactly if every number can be read, units are SI or eV and exactly one quantity is given; it then uses the last value given for each argument and prints the result of Converter for these values. Otherwise it stops with a usage message.", "quantifier": "for all argument lists (false for negative numbers with exponent given as an argument of their own and for values attached to -bg and -KE, which are never accepted)", "why_tests_cant": "All spellings, orders and repetitions of arguments; the tests never use the parser.", "anchors": ["rsbeams/rsstats/kinematic.py:parser", "rsbeams/rsstats/kinematic.py:Converter.__init__", "rsbeams/rsstats/kinematic.py:main"]}
{"id": "C138", "title": "Extent of nonlinear bunches", "statement": "The particles of a nonlinear KV, waterbag or Gaussian bunch have |x| at most c*sqrt(betax) and |y| at most sqrt(betax) times the height Y of a point of the vertical axis whose energy is emitx (KV), emit (waterbag) or at most cutoff*emit (Gaussian).", "quantifier": "for all random numbers in [0,1), Twiss parameters, t, c > 0, particle numbers, quiet starts and all root finders that return roots", "why_tests_cant": "Random draws over a continuous domain and an unknown root finder.", "anchors": ["rsbeams/rsptcls/bunch.py:NonlinearBunch.distribute_KV", "rsbeams/rsptcls/bunch.py:NonlinearBunch.distribute_waterbag", "rsbeams/rsptcls/bunch.py:NonlinearBunch.distribute_Gaussian", "rsbeams/rsptcls/bunch.py:StandardBunch.whatsleft"]}
{"id": "C139", "title": "Kinematic results stay physical in double precision", "statement": "With rounded arithmetic the converter raises nothing and gives no nan for any value a massive particle can have: velocity at most c, gamma at least 1, energy at least the mass, kinetic energy not negative, momentum at most the energy; or these are infinite and the velocity is c.", "quantifier": "for all eight quantities, all values a massive particle can have, all masses > 0, and every rounding to nearest with 53 bits (no overflow or underflow)", "why_tests_cant": "Rounding behaves differently in every binade; tests see a few numbers.", "anchors": ["rsbeams/rsstats/kinematic.py:Converter.__call__", "rsbeams/rsstats/kinematic.py:Converter.start_momentum", "rsbeams/rsstats/kinematic.py:Converter.start_kenergy"]}
{"id": "C140", "title": "Kinematics of fast particles in double precision", "statement": "Given a momentum, beta*gamma or B*rho the converter gives velocity, gamma, energy, momentum, beta*gamma and B*rho up to rounding errors.", "quantifier": "for all momenta and masses > 0 and every rounding to nearest with 53 bits (false: the error grows with the square of gamma, and from 2^27 masses all but the velocity are infinite)", "why_tests_cant": "Rounding behaves differently in every binade; tests see a few numbers.", "anchors": ["rsbeams/rsstats/kinematic.py:Converter.__call__", "rsbeams/rsstats/kinematic.py:Converter.start_momentum", "rsbeams/rsstats/kinematic.py:Converter.start_kenergy"]}
{"id": "C141", "title": "Kinetic energies of slow particles in double precision", "statement": "The converter gives back the value it was given up to rounding errors, and the kinetic energy of moving particles is not zero.", "quantifier": "for all values and masses > 0 and every rounding to nearest with 53 bits (true for velocity, energy, beta and gamma; false for kinetic energies below 2^-54 masses and velocities below 2^-28 c)", "why_tests_cant": "Rounding behaves differently in every binade; tests see a few numbers.", "anchors": ["rsbeams/rsstats/kinematic.py:Converter.__call__", "rsbeams/rsstats/kinematic.py:Converter.start_momentum", "rsbeams/rsstats/kinematic.py:Converter.start_kenergy"]}
{"id": "C142", "title": "Variances in double precision", "statement": "With rounded arithmetic no variance is negative, equal values have variance zero, and the average stays between the smallest and the largest value.", "quantifier": "for all arrays of doubles with at least one particle and every rounding to nearest with 53 bits (no overflow or underflow)", "why_tests_cant": "Rounding behaves differently in every binade; tests see a few numbers.", "anchors": ["rsbeams/rsstats/stats6d.py:calc_variance6d"]}
{"id": "C143", "title": "Phase advance in double precision", "statement": "With rounded arithmetic the phase advance is in [0, 2 pi).", "quantifier": "for all angles between -pi and pi and every rounding to nearest with 53 bits (false: for angles that nearly agree it is 2 pi; the closed interval holds)", "why_tests_cant": "Rounding behaves differently in every binade; tests see a few numbers.", "anchors": ["rsbeams/rsptcls/phases.py:phase_advance"]}
{"id": "C144", "title": "Numeric sampling in double precision", "statement": "With rounded arithmetic numeric inversion returns a grid point for every number the generator can draw.", "quantifier": "for all grids, all weights >= 0 and every rounding to nearest with 53 bits (false for every grid of 8 points or more: the cumulative sum and np.sum add in different orders, so the last value can be below 1)", "why_tests_cant": "Rounding behaves differently in every binade; tests see a few numbers.", "anchors": ["rsbeams/rsstats/sample.py:_calculate_cdf", "rsbeams/rsstats/sample.py:sample"]}
{"id": "C145", "title": "ASCII files without row counts", "statement": "read() returns all pages of an ASCII file with no_row_counts=1, where an empty line ends each page.", "quantifier": "for all headers, pages and values the format can hold, buffered and unbuffered (false for buffered files with two or more pages of two or more rows, with comments among the rows, and for pages passed over in buffered files)", "why_tests_cant": "The number of rows is found by counting lines; every combination of pages, rows and comments counts differently.", "anchors": ["rsbeams/rsdata/SDDS.py:_get_ascii_row_count", "rsbeams/rsdata/SDDS.py:read", "rsbeams/rsdata/SDDS.py:_get_column_data"]}
{"id": "C146", "title": "Descriptions of parameters and columns", "statement": "The accessors of the header give the texts of the last declaration of a name, and raise KeyError exactly for names that are not declared.", "quantifier": "for all headers that can be opened and all names", "why_tests_cant": "Tests look up a few names of a few files.", "anchors": ["rsbeams/rsdata/SDDS.py:parameter_symbol", "rsbeams/rsdata/SDDS.py:column_type", "rsbeams/rsdata/utils.py:list_to_dict"]}
{"id": "C147", "title": "Parameters and columns a writer takes", "statement": "A writer takes the documented types, requires parData=None with a fixed value, and holds what was taken in the order of the calls, whatever calls failed in between.", "quantifier": "for all sequences of calls (false for the type character, and for fixed values that are zero or empty)", "why_tests_cant": "Sequences of calls with failures in between are not tested.", "anchors": ["rsbeams/rsdata/SDDS.py:create_parameter", "rsbeams/rsdata/SDDS.py:create_column"]}
{"id": "C148", "title": "Binary files that say no_row_counts", "statement": "read() returns the rows of a binary page, also if the header says no_row_counts=1 (binary pages always have a row count).", "quantifier": "for all headers, pages and values, buffered and unbuffered (false: the number of bytes before the next zero byte, or of lines before the next blank line without buffer, is taken for the number of rows)", "why_tests_cant": "Depends on the bytes of the data.", "anchors": ["rsbeams/rsdata/SDDS.py:_get_ascii_row_count", "rsbeams/rsdata/SDDS.py:read"]}
{"id": "C149", "title": "Negative row counts", "statement": "read() raises an exception if a binary page says that it has a negative number of rows.", "quantifier": "for all headers, parameters, rows and negative row counts, buffered and unbuffered (false: all rows up to the end of the file are returned, or None if there is a column of strings)", "why_tests_cant": "A negative count has a special meaning for numpy, which no written file shows.", "anchors": ["rsbeams/rsdata/SDDS.py:read", "rsbeams/rsdata/SDDS.py:_get_column_data"]}
{"id": "C150", "title": "Nonlinear insert in double precision", "statement": "generate_sequence() gives positive finite beta functions and finite strengths and apertures.", "quantifier": "for all lengths of double precision, numbers of slices, strengths and apertures and all tangents of the phase in double precision other than zero (false: at most 2^-28 or at least 2^28 in magnitude no beta function is a number and all strengths are nan, so for all multiples of one half)", "why_tests_cant": "The tangent is never infinite in double precision, so no exception shows; only particular phases lose all digits.", "anchors": ["rsbeams/rslattice/nonlinear.py:generate_sequence"]}
{"id": "C151", "title": "Design particle in double precision", "statement": "get_gamma0() is at least 1 and right to 2^-51, get_beta0() is at most 1 in magnitude and right to 2^-50, and get_peak_current_rms() is right to 2^-49.", "quantifier": "for all momenta, positive masses, charges and lengths other than zero, with every operation rounded", "why_tests_cant": "Roundings differ for every pair of momentum and mass; fast particles are at the limit.", "anchors": ["rsbeams/rsptcls/RsPtclBeam6D.py:get_gamma0", "rsbeams/rsptcls/RsPtclBeam6D.py:get_beta0", "rsbeams/rsptcls/RsPtclBeam6D.py:get_peak_current_rms"]}
{"id": "C152", "title": "Twiss transformation in double precision", "statement": "make_twiss_dist_6d() transforms with two factors whose product is 1 and whose squares add up to gamma + beta, up to rounding.", "quantifier": "for all alpha and all positive beta, with every operation rounded (false if gamma + beta is at least 2^28: ValueError, a factor of zero or a product of more than the root of 2; upright beams lose all momenta or all positions)", "why_tests_cant": "Digits cancel in a difference of large numbers; only far from beta = 1.", "anchors": ["rsbeams/rsptcls/RsDistrib6D.py:make_twiss_dist_6d"]}
{"id": "C153", "title": "Magnet profile in double precision", "statement": "The rectangles drawn by plot_profile have the element positions as edges up to rounding, their widths are not negative, and none of them reaches into the next one.", "quantifier": "for all positions that do not decrease, with every operation rounded (false for magnets that end behind twice their start)", "why_tests_cant": "The overlap is one unit of the last place and depends on how ties are rounded.", "anchors": ["rsbeams/rsplot/util.py:plot_profile"]}
{"id": "C154", "title": "Twiss parameters from moments in double precision", "statement": "calc_twiss6d() gives emittance, alpha and beta of the second moments up to rounding, for every beam with positive emittance.", "quantifier": "for all second moments with positive emittance, with every operation rounded (false for tilted beams, which are refused)", "why_tests_cant": "Digits cancel in a difference of products; only for strongly tilted beams.", "anchors": ["rsbeams/rsptcls/RsDistrib6D.py:calc_twiss6d"]}
{"id": "C155", "title": "Sampling by interpolation in double precision", "statement": "sample() with invert='interpolate' gives samples for every distribution that is positive on the grid.", "quantifier": "for all positive weights and grids, with every operation rounded (false if a weight is below 2^-55 of the sum of those before it: ValueError)", "why_tests_cant": "Distributions that fall fast, such as a Gaussian beyond nine standard deviations.", "anchors": ["rsbeams/rsstats/sample.py:sample", "rsbeams/rsstats/sample.py:_calculate_cdf"]}
{"id": "C156", "title": "Elliptic potential in double precision", "statement": "compute_potential() gives a number for every point other than the two singular points x = \u00b1c, y = 0.", "quantifier": "for all strengths, distances of the poles and points, with every operation rounded to the nearest, ties to even (false: the last number before a pole gives nan, and so do points on the axis outside of the poles)", "why_tests_cant": "The points at which rounding makes nan of a finite value are single numbers; a test hits them by chance only.", "anchors": ["rsbeams/rsptcls/bunch.py:compute_potential", "rsbeams/rsptcls/bunch.py:compute_Hamiltonian"]}
{"id": "C157", "title": "Accuracy of the variances in double precision", "statement": "calc_variance6d() gives the population variance up to rounding errors: the relative error is small.", "quantifier": "for all numbers of particles and all values, with every operation rounded (false relative to the variance: for two neighbouring numbers it is twice as large as it should be; true relative to the largest square of the values)", "why_tests_cant": "The error grows with the number of particles and with the offset of the beam; no test bounds it for all beams.", "anchors": ["rsbeams/rsstats/stats6d.py:calc_variance6d"]}
{"id": "C158", "title": "What edit_element changes", "statement": "edit_element(name, parameters, values) sets the parameters of every element of that name in the beamline and changes nothing else.", "quantifier": "for all beamlines, names, positions and lists of parameters and values (false for elements inside of sub-beamlines, which are not changed, and for names of sub-beamlines, which raise AttributeError after the elements before them have been changed)", "why_tests_cant": "Elements are shared, so a call may change more or less than intended; tests edit one element of a flat beamline.", "anchors": ["rsbeams/rslattice/Beamline.py:edit_element"]}
{"id": "C159", "title": "Averages in double precision", "statement": "The average of a coordinate lies between its smallest and its largest value, and calc_avg6d() gives the mean up to rounding errors; after sub_avg6d() equal coordinates are zero.", "quantifier": "for all numbers of particles and all values, with every operation rounded to nearest (false from three particles on: three particles with the coordinate 0.1 have another average; the error is bounded by a number of roundings that grows with the logarithm of the number of particles)", "why_tests_cant": "numpy adds in blocks, so the error depends on the number of particles; no test bounds it for all beams.", "anchors": ["rsbeams/rsstats/stats6d.py:calc_avg6d", "rsbeams/rsstats/stats6d.py:sub_avg6d"]}
{"id": "C160", "title": "Lengths and positions in double precision", "statement": "The length of a beamline and the positions of its elements are the sums of the lengths up to rounding, the position of the next element is that of the element plus its length, positions increase along the beamline, and the length does not depend on the order of the elements.", "quantifier": "for all beamlines and lengths, with every addition rounded to nearest (false for elements shorter than 2^-54 of their position, which do not move the next element, and for the order: families of three elements whose length depends on the direction)", "why_tests_cant": "The error grows with the number of elements; tests compare a few short beamlines with a tolerance.", "anchors": ["rsbeams/rslattice/Beamline.py:length", "rsbeams/rslattice/Element.py:edge"]}
{"id": "C161", "title": "Histograms and the current in double precision", "statement": "The counts of a histogram sum to the number of data, the middle of a bin lies between its edges, the count of a bin is the number of data between its edges, and the current times the length of a bin sums to the charge up to rounding.", "quantifier": "for all data that are not all equal and all numbers of bins, with every operation rounded to nearest (the count of a bin is wrong for data that are two neighbouring numbers in 8 or more bins)", "why_tests_cant": "np.histogram corrects its guess by one bin only; whether that is enough depends on the spread, the offset and the number of bins together.", "anchors": ["rsbeams/rsplot/util.py:get_histogram_points", "rsbeams/rsplot/util.py:get_current_from_t"]}
{"id": "C162", "title": "Correlations in double precision", "statement": "calc_correlations6d() returns a symmetric matrix, its diagonal are the variances of calc_variance6d(), and its other entries are the covariances up to rounding.", "quantifier": "for all arrays of up to 2^47 particles, with every operation rounded to nearest (symmetry and diagonal true to the last bit; the other entries lack the share of the first particle and are right without it)", "why_tests_cant": "Errors of averages, products and sums add up; no test bounds them for all bunches.", "anchors": ["rsbeams/rsstats/stats6d.py:calc_correlations6d"]}
{"id": "C163", "title": "Conversions for elegant and genesis in double precision", "statement": "A particle written for elegant and read back has the same positions and total momentum, and momenta and time of flight agree up to two rounding errors; a second round trip changes nothing; times written for genesis are relative to the average up to rounding.", "quantifier": "for all particles with positive total momentum, with every operation rounded to nearest", "why_tests_cant": "Only for some mantissas is a quotient multiplied back to the same number; tests with round numbers hit the exact ones.", "anchors": ["rsbeams/rsdata/switchyard.py:Switchyard.write_elegant", "rsbeams/rsdata/switchyard.py:read_elegant", "rsbeams/rsdata/switchyard.py:Switchyard.write_genesis"]}
{"id": "C164", "title": "Normalising in double precision", "statement": "After normalize_rms6d() every coordinate is the old one divided by its rms value up to rounding, the order of the particles is kept, and the rms values are one up to rounding.", "quantifier": "for all arrays of up to 2^47 particles whose variances are not too small, with every operation rounded to nearest (division by the rms and order hold for all particles but the overwritten first one; the rms values of two opposite particles become one half)", "why_tests_cant": "Errors of variance, root, reciprocal and product combine; no test bounds them for all bunches.", "anchors": ["rsbeams/rsstats/stats6d.py:calc_rms6d", "rsbeams/rsstats/stats6d.py:normalize_rms6d"]}
{"id": "C165", "title": "Saved scatter plots show the plotted data", "statement": "A picture saved by RsScatterPS6D after a plot shows exactly the data of this plot, with its limits, labels and title.", "quantifier": "for all programs: any sequence of calls of the methods of any number of objects, with any figures closed while they are shown (false if several objects plot: they number their figures independently, so plots of different objects are drawn on top of each other)", "why_tests_cant": "All sequences of calls of any length; the figures are state of the whole program.", "anchors": ["rsbeams/rsplot/RsScatterPS6D.py"]}
{"id": "C166", "title": "KV bunches in double precision", "statement": "After distribute_KV with a quiet start the sum of each transverse coordinate is exactly zero; no particle is outside the bound of the trial positions; and the Courant-Snyder invariants add up to the emittance up to rounding.", "quantifier": "for all random draws, particle numbers, Twiss parameters and root finders, with every operation rounded (the last part fails for the same bunches as in exact arithmetic, see C56)", "why_tests_cant": "The sums of floating point numbers depend on their order; all draws and particle numbers of any size.", "anchors": ["rsbeams/rsptcls/bunch.py"]}
{"id": "C167", "title": "Uniform and Gaussian distributions in double precision", "statement": "In double precision make_unif_distrib puts every position and every momentum inside the unit ball with coordinates exactly 2a-1 for drawn numbers a, and make_gauss_distrib keeps only coordinates whose exact square is below max_rms_fac; both make as many particles as requested.", "quantifier": "for all numbers numpy can draw, all particle numbers and all limits, with every operation rounded to nearest and ties rounded either way", "why_tests_cant": "Only a handful of the 2^159 triples of drawn numbers are accepted wrongly; a test never draws one.", "anchors": ["rsbeams/rsptcls/RsDistrib6D.py"]}
{"id": "C168", "title": "Significant figures in double precision", "statement": "In double precision specify_significant_figures gives the double next to the number with the requested figures, and asking again changes nothing.", "quantifier": "for all numbers and numbers of figures, with every operation rounded to nearest, and whatever log10 and the power of a float give within their documented accuracy", "why_tests_cant": "Whether the last bit is right depends on the number; tests with tolerances do not see it.", "anchors": ["rsbeams/rsstats/stats6d.py"]}
{"id": "C169", "title": "Nonlinear bunches in double precision", "statement": "In double precision the KV, waterbag and Gaussian bunches of a NonlinearBunch are as with exact numbers: the potential is a number or nan, a quiet start has centroids that are exactly zero, no particle is beyond the pole, every particle is where the potential is below its energy, and the emittance is restored.", "quantifier": "for all bunches, drawn numbers, root finders and roundings to nearest", "why_tests_cant": "The particles are random; a sum of exactly zero, an infinite potential next to the pole or a root of a negative number depend on the drawn numbers.", "anchors": ["rsbeams/rsptcls/bunch.py"]}
{"id": "C170", "title": "Contour levels in double precision", "statement": "In double precision gen_contour_levels gives as many increasing and equidistant levels as asked for, from minus a bound to one step below it, that reach from below the field to above it.", "quantifier": "for all fields, numbers of levels up to 2^48, multipliers and roundings to nearest (false for small fields and for fields whose values cannot be told apart after the multiplication)", "why_tests_cant": "Which neighbouring values become the same after the multiplication, and whether two levels coincide, depends on the last bits of the field.", "anchors": ["rsbeams/rsplot/plot_ptcls.py"]}
{"id": "C171", "title": "Offsets and factors of one component in double precision", "statement": "In double precision offset_component and multiply_component change only the given component, move and scale every particle up to one rounding, keep the spread of the beam and can be undone.", "quantifier": "for all arrays, offsets, factors, indices and roundings to nearest (spread and undoing are false for offsets far above the values)", "why_tests_cant": "Whether an offset loses the particles depends on how its size compares to every value in the array; a test with a few magnitudes sees neither the exact nor the lossy range.", "anchors": ["rsbeams/rsptcls/RsDistrib6D.py"]}
{"id": "C172", "title": "Magnet gradients in double precision", "statement": "In double precision _get_gradient gives a number with the sign of the strength that is the strength times the rigidity up to a few roundings.", "quantifier": "for all energies, masses, strengths and roundings to nearest (false below the mass: the gradient is not a number, and the momentum is passed for the energy; sextupoles get the square of the rigidity)", "why_tests_cant": "Close to the mass the root is taken of a difference of rounded numbers; whether it is negative, zero or positive depends on the last bit of the quotient of energy and mass.", "anchors": ["rsbeams/pkcli/lattice.py"]}
{"id": "C173", "title": "Lengths of TraceWin beamlines in double precision", "statement": "In double precision the elements read from a TraceWin file have the total length of the lines up to a few roundings, and the cavity of every cell whose quadrupoles fit into it has a length that is not negative.", "quantifier": "for all files, numbers and roundings to nearest (the second is false for cells without a gap between the quadrupoles)", "why_tests_cant": "The millimetres are converted before the quadrupoles are taken off; the sign of what is left depends on the last bits of three products with 0.001.", "anchors": ["rsbeams/rslattice/trace3d_parser.py"]}
{"id": "C174", "title": "The centroid in double precision", "statement": "In double precision the closed form of first order gives the average over the waterbag up to a few roundings of the offset and of the phases, and never a centroid beyond the offset by more than a few roundings.", "quantifier": "for all offsets, tunes, coefficients, turns, roundings to nearest and sine and cosine to one unit in the last place (false for a coefficient of zero)", "why_tests_cant": "The quotient of two small numbers is accurate for coefficients of every size only because the bracket vanishes with the denominator; tests see a few coefficients and turns.", "anchors": ["rsbeams/rsphysics/decoherence.py"]}
{"id": "C175", "title": "Elements of TRACE 3-D files in double precision", "statement": "In double precision the elements read from a TRACE 3-D file have the numbers of the file in SI units up to a few roundings, numbers without a unit exactly, and the arc length of every bend is that of its own radius and angle.", "quantifier": "for all files of entries, all numbers and all roundings to nearest", "why_tests_cant": "The errors of the constants 1e-3 and pi/180 enter every element; a wrong or twice applied conversion of one key shows only for elements with that key, and the last digits are not compared by tests.", "anchors": ["rsbeams/rslattice/trace3d_parser.py"]}
{"id": "C176", "title": "Phase space pictures in double precision", "statement": "In double precision the points of the four phase space pictures are in the order of the coordinates of the particles and right to a few roundings; particles of equal momentum have the momentum deviation zero.", "quantifier": "for all bunches of positive momenta and up to 2^47 particles and all roundings to nearest (false for bunches of equal momenta)", "why_tests_cant": "The average is subtracted from numbers that differ from it in the last digits only; whether the rounding of the average moves all particles off zero depends on single bits of the momenta.", "anchors": ["rsbeams/rsplot/beam_plots.py"]}
{"id": "C177", "title": "The third Twiss parameter in double precision", "statement": "In double precision the Twiss parameters of an RsTwiss2D object satisfy beta gamma - alpha^2 = 1 up to rounding, and gamma times the emittance of the parameters that calc_twiss6d() stores is the second moment of the momenta.", "quantifier": "for all alpha, beta other than zero and second moments with positive emittance, and all roundings to nearest (false for alpha from 2^27 on)", "why_tests_cant": "One is added to a square; from which alpha on it is lost, and the ellipse has no area, is not seen with the alphas of the order of one that tests use.", "anchors": ["rsbeams/rsptcls/RsTwiss2D.py", "rsbeams/rsptcls/RsDistrib6D.py"]}
{"id": "C178", "title": "The integrand of the centroid in double precision", "statement": "In double precision the integrand of the centroid is at most |Z| / (2 pi n) up to rounding for amplitudes up to 2 pi n and exactly zero beyond, and it is the cosine of the difference of the phases up to an error that grows with the phases and the number of coefficients.", "quantifier": "for all Z, tunes, lists of up to 2^40 coefficients, turns other than zero, amplitudes, roundings to nearest and libraries whose sine, cosine and powers are accurate to an ulp", "why_tests_cant": "The phase grows with the turn and the powers of the amplitude, and with it the loss of digits; tests use a few turns and two coefficients.", "anchors": ["rsbeams/rsphysics/decoherence.py"]}
{"id": "C179", "title": "Arrays of amplitudes", "statement": "The integrand of the centroid takes a float or an array: an array of amplitudes gives the array of the integrands of its entries.", "quantifier": "for all centroids, turns other than zero and arrays of one dimension (false for entries at 2 pi n and for arrays of one entry)", "why_tests_cant": "Floats and arrays go through different branches with different comparisons; they differ at one amplitude and for one length only.", "anchors": ["rsbeams/rsphysics/decoherence.py"]}
