{
 "claims": [
  {
   "property": "C01",
   "status": "partial",
   "theorems": [
    "Verif.Sdds.save_read_partial",
    "Verif.Sdds.save_read_iff",
    "Verif.Sdds.save_read_mixed_fails",
    "Verif.Sdds.save_read_unbuffered_iff",
    "Verif.Sdds.save_read_large_fails",
    "Verif.Sdds.save_read_large_partial",
    "Verif.Sdds.dataVal_int"
   ],
   "note": "End to end (save, open, read) for columns of one common type, any row count below 2^31. For every mix of column types, buffered reading gives back the saved page exactly when there are no rows or one column type; otherwise no read ends with a single page. Without buffer the same, and the first line behind the first byte of the row count must not be white space. With 2^31 to 2^32 - 1 rows of one type the count is read as a negative number: buffered reading never gives the saved page alone (save_read_large_fails), unbuffered reading gives it back exactly (save_read_large_partial)."
  },
  {
   "property": "C02",
   "status": "partial",
   "theorems": [
    "Verif.Sdds.metadata_partial",
    "Verif.Sdds.metadata_iff",
    "Verif.Sdds.metadata_fails",
    "Verif.Sdds.quotes_never_return",
    "Verif.Sdds.odd_quotes_fail",
    "Verif.Sdds.lines_iff",
    "Verif.Sdds.early_end_fails"
   ],
   "note": "Every text without double quote, line end and odd final backslashes: returned exactly if ASCII, without two backslashes in a row and without final comma. Text with a double quote never returns if no text of the header has a backslash, and an odd number of double quotes in one definition makes the file unreadable. With line ends, without backslashes and double quotes: all texts return exactly if no text has an empty line or a line starting with !, no line end follows &end, and each is ASCII without final comma."
  },
  {
   "property": "C03",
   "status": "partial",
   "theorems": [
    "Verif.Sdds.fixed_value_partial",
    "Verif.Sdds.fixed_value_fails",
    "Verif.Sdds.falsy_iff",
    "Verif.Sdds.fixed_text_iff",
    "Verif.Sdds.lines_iff"
   ],
   "note": "All values except exactly 0, 0.0, -0.0 and the empty text, which are always lost; exact condition for text."
  },
  {
   "property": "C04",
   "status": "partial",
   "theorems": [
    "Verif.Sdds.column_bytes_partial",
    "Verif.Sdds.column_bytes_iff",
    "Verif.Sdds.column_bytes_fails",
    "Verif.Sdds.column_bytes_mixed_fails",
    "Verif.Sdds.column_bytes_one_type_iff",
    "Verif.Sdds.stack_type_least",
    "Verif.Sdds.stacked_bytes"
   ],
   "note": "Exact condition: true exactly when all columns have one type (or there are no rows); false for every table that mixes two types."
  },
  {
   "property": "C05",
   "status": "partial",
   "theorems": [
    "Verif.Sdds.save_succeeds_iff",
    "Verif.Sdds.save_types_partial",
    "Verif.Sdds.save_types_fails"
   ],
   "note": "Exact condition for success; every short or string parameter with data raises."
  },
  {
   "property": "C06",
   "status": "partial",
   "theorems": [
    "Verif.Sdds.read_all_pages_partial",
    "Verif.Sdds.read_ragged_fails"
   ],
   "note": "All files whose pages have the same number of rows; pages with different row counts make read() raise."
  },
  {
   "property": "C07",
   "status": "partial",
   "theorems": [
    "Verif.Sdds.read_selected_partial",
    "Verif.Sdds.read_selected_exact",
    "Verif.Sdds.atPages_spec",
    "Verif.Sdds.read_selected_strings_exact",
    "Verif.Sdds.read_selected_strings_iff",
    "Verif.Sdds.read_selected_unbuffered_exact",
    "Verif.Sdds.read_selected_strings_fails",
    "Verif.Sdds.read_selected_unbuffered_fails"
   ],
   "note": "Buffered files without strings, and for pages of any row counts what is returned or raised (read_selected_exact). With a string field the columns of every page up to the last selected one come back, so the claim holds exactly for selections without gaps. Without buffer, page 1 of every file of two pages of numbers (the first not shorter) comes back without rows."
  },
  {
   "property": "C08",
   "status": "partial",
   "theorems": [
    "Verif.Sdds.buffer_agree_partial",
    "Verif.Sdds.buffer_agree_iff",
    "Verif.Sdds.buffer_unbuffered_exact",
    "Verif.Sdds.buffer_newline_fails"
   ],
   "note": "Agree for all pages whose second byte is not white space, and exactly if behind the first byte of every page there is a line that is not white space; the unbuffered reader sees the pages before the first one that is not so. Disagree for every file whose first page has 2560 to 2815 rows."
  },
  {
   "property": "C09",
   "status": "partial",
   "theorems": [
    "Verif.Sdds.read_strings_exact",
    "Verif.Sdds.read_strings_iff",
    "Verif.Sdds.read_strings_partial",
    "Verif.Sdds.read_strings_fails",
    "Verif.Sdds.fixed_length_kept"
   ],
   "note": "Exact outcome for every page of arbitrary strings, and the exact condition under which it comes back as written: ASCII, at most max_string_length, no final NUL, no empty string parameter, no empty string in the last column. The claim without these conditions is false."
  },
  {
   "property": "C10",
   "status": "proved",
   "theorems": [
    "Verif.Sdds.header_comments"
   ],
   "note": "Any header (also multi-line namelists), any inserted or removed comment and blank lines."
  },
  {
   "property": "C100",
   "status": "proved",
   "theorems": [
    "Verif.Plot.one_formula"
   ],
   "note": ""
  },
  {
   "property": "C101",
   "status": "partial",
   "theorems": [
    "Verif.Plot.control_words_partial",
    "Verif.Plot.control_words_fails",
    "Verif.Plot.control_words_iff",
    "Verif.Plot.letters_exact"
   ],
   "note": "True unless a roman letter follows a Greek or special one; then false (universal)."
  },
  {
   "property": "C102",
   "status": "partial",
   "theorems": [
    "Verif.Plot.inverted",
    "Verif.Plot.types_colors",
    "Verif.Plot.lines_partial",
    "Verif.Plot.lines_fails"
   ],
   "note": "Colours proved; lines true for scale one, false for others."
  },
  {
   "property": "C103",
   "status": "proved",
   "theorems": [
    "Verif.Plot.counts_interval",
    "Verif.Plot.histogram_refuses",
    "Verif.Plot.counts_total",
    "Verif.Plot.centres_spec"
   ],
   "note": "Exact reals."
  },
  {
   "property": "C104",
   "status": "partial",
   "theorems": [
    "Verif.Plot.longitudinal_given",
    "Verif.Plot.longitudinal_zero_partial",
    "Verif.Plot.longitudinal_missing_fails"
   ],
   "note": "Given charge and charge zero proved; a file without charge raises ValueError."
  },
  {
   "property": "C105",
   "status": "partial",
   "theorems": [
    "Verif.Plot.label_partial",
    "Verif.Plot.label_fails",
    "Verif.Plot.label_first",
    "Verif.Plot.label_iff"
   ],
   "note": "Exactly the labels of at most five characters that do not end with NUL are read back."
  },
  {
   "property": "C106",
   "status": "partial",
   "theorems": [
    "Verif.Plot.levels_spaced",
    "Verif.Plot.levels_cover_partial",
    "Verif.Plot.levels_small_fails",
    "Verif.Plot.levels_constant_fails",
    "Verif.Plot.levels_cover_iff"
   ],
   "note": "Exact reals. Proved for fields with values of at least 0.011 in magnitude that are not constant; false for small and constant ones. Exact condition for any number of levels and multiplier."
  },
  {
   "property": "C107",
   "status": "partial",
   "theorems": [
    "Verif.Sdds.ascii_names_partial",
    "Verif.Sdds.ascii_column_names_fails",
    "Verif.Sdds.ascii_param_names_fails"
   ],
   "note": "Proved for names without white space and quotes other than return, file and print; false for the others. The behaviour of genfromtxt is an assumption."
  },
  {
   "property": "C108",
   "status": "partial",
   "theorems": [
    "Verif.Sdds.ascii_save_read_partial",
    "Verif.Sdds.ascii_save_short_fails",
    "Verif.Sdds.ascii_save_integers_fails",
    "Verif.Sdds.ascii_save_empty_fails"
   ],
   "note": "Proved for at least one row, and doubles if there is a single column; without buffer the first data line needs more than one character. False (universally) in the other cases. The text of floats and genfromtxt are assumptions stated in the theorems and in DESIGN.md."
  },
  {
   "property": "C109",
   "status": "proved",
   "theorems": [
    "Verif.Sdds.ascii_last_newline"
   ],
   "note": "For the modelled genfromtxt and line splitting (see DESIGN.md)."
  },
  {
   "property": "C11",
   "status": "partial",
   "theorems": [
    "Verif.Sdds.open_ends_partial",
    "Verif.Sdds.open_ends_iff",
    "Verif.Sdds.open_blank_fails",
    "Verif.Sdds.open_truncated_fails",
    "Verif.Sdds.open_fuel"
   ],
   "note": "Complete headers end; for every byte string opening ends exactly if the lines that are not blank or comments begin with one without SDDS1, or lead to an ended &data namelist or a line that starts no namelist with all namelists before it ended (open_ends_iff); every file of comments only and every file without &data line makes the constructor loop for ever."
  },
  {
   "property": "C110",
   "status": "partial",
   "theorems": [
    "Verif.Sdds.ascii_ragged_partial",
    "Verif.Sdds.ascii_extra_words_fails",
    "Verif.Sdds.ascii_ragged_gaps",
    "Verif.Sdds.ascii_buffered_lost"
   ],
   "note": "Proved for all ragged tables but those whose rows all have the same larger number of words, for which it is false (universal, two columns or more). With buffer, behind other pages, only if as many lines as a page has rows follow it; a short ragged page behind a longer one is lost silently (ascii_buffered_lost)."
  },
  {
   "property": "C111",
   "status": "proved",
   "theorems": [
    "Verif.Plot.density_cell",
    "Verif.Plot.density_total",
    "Verif.Plot.density_refuses",
    "Verif.Plot.density_borders"
   ],
   "note": "Exact reals; np.histogram2d as described in Plot/Density.lean."
  },
  {
   "property": "C112",
   "status": "proved",
   "theorems": [
    "Verif.Plot.projection_agrees",
    "Verif.Plot.longitudinal_agrees",
    "Verif.Plot.projection_shows",
    "Verif.Plot.plane_pictures"
   ],
   "note": "Exact reals. For the current curve the charge is given as a number."
  },
  {
   "property": "C113",
   "status": "partial",
   "theorems": [
    "Verif.Plot.phase_space_partial",
    "Verif.Plot.phase_space_zero_fails"
   ],
   "note": "Proved unless the momenta add up to zero; then (always, for a bunch with particles) ValueError."
  },
  {
   "property": "C114",
   "status": "partial",
   "theorems": [
    "Verif.Ptcls.new_phase_space",
    "Verif.Ptcls.new_store",
    "Verif.Ptcls.check_exact",
    "Verif.Ptcls.store_matches_partial",
    "Verif.Ptcls.set_array_fails",
    "Verif.Ptcls.read_wrong_fails"
   ],
   "note": "Proved for histories in which every array set has the stored number of particles and no read fails its check; false (universally) for the other steps."
  },
  {
   "property": "C115",
   "status": "proved",
   "theorems": [
    "Verif.Ptcls.write_read",
    "Verif.Ptcls.read_missing",
    "Verif.Ptcls.name_kept"
   ],
   "note": "np.savez and np.load are assumed to lose nothing; the file system is a map from names to arrays."
  },
  {
   "property": "C116",
   "status": "partial",
   "theorems": [
    "Verif.Ptcls.peak_current",
    "Verif.Ptcls.peak_current_twice_partial",
    "Verif.Ptcls.peak_current_twice_fails",
    "Verif.Ptcls.peak_current_refuses",
    "Verif.Ptcls.variance_after"
   ],
   "note": "The formula is proved for every bunch; asking twice is proved if the first particle is at the mean and false otherwise (universal: the second answer is larger)."
  },
  {
   "property": "C117",
   "status": "proved",
   "theorems": [
    "Verif.Ptcls.coordinate_range",
    "Verif.Ptcls.range_refuses"
   ],
   "note": "Exact reals."
  },
  {
   "property": "C118",
   "status": "partial",
   "theorems": [
    "Verif.Sample.interp_node_partial",
    "Verif.Sample.interp_uniform",
    "Verif.Sample.interp_outside_fails",
    "Verif.Sample.interp_zero_fails",
    "Verif.Sample.interp_short",
    "Verif.Sample.interp_iff",
    "Verif.Sample.interp_node_exact"
   ],
   "note": "For every spline that goes through its nodes and reproduces straight lines (scipy interp1d is assumed to). Proved at the values of the distribution; false for numbers below the first value (exact formula for a uniform density) and for distributions with zeros."
  },
  {
   "property": "C119",
   "status": "partial",
   "theorems": [
    "Verif.Sdds.foreign_ignored_partial",
    "Verif.Sdds.array_fails"
   ],
   "note": "Proved for description, include and associate lines at any place; false (universally) for array lines."
  },
  {
   "property": "C12",
   "status": "partial",
   "theorems": [
    "Verif.Sdds.quoted_verbatim_partial",
    "Verif.Sdds.quoted_verbatim_iff",
    "Verif.Sdds.quoted_comma_fails",
    "Verif.Sdds.quotes_need_backslash",
    "Verif.Sdds.blank_lines_lost",
    "Verif.Sdds.lines_iff",
    "Verif.Sdds.early_end_fails"
   ],
   "note": "Exact for every text without double quote and odd final backslashes in a definition that is read to its end: kept exactly if ASCII, without two backslashes in a row and final comma. In any file that opens, a double quote in a text comes from a backslash in the header, and empty lines and lines that begin with ! never return."
  },
  {
   "property": "C120",
   "status": "proved",
   "theorems": [
    "Verif.Sdds.open_iff",
    "Verif.Sdds.field_length_fails",
    "Verif.Sdds.column_type_fails"
   ],
   "note": "Exact condition for well-formed headers, binary and ASCII. The two further theorems spell out the surprising refusals (a string column with field_length, a column type outside the six)."
  },
  {
   "property": "C121",
   "status": "partial",
   "theorems": [
    "Verif.Sdds.call_first",
    "Verif.Sdds.read_again_partial",
    "Verif.Sdds.read_twice_fails",
    "Verif.Sdds.ragged_stays_failed",
    "Verif.Sdds.cut_then_read_fails"
   ],
   "note": "Exact effect of earlier calls proved for all readers and files, binary and ASCII: their pages stay in front. The claim as stated is false for every file with a page."
  },
  {
   "property": "C122",
   "status": "partial",
   "theorems": [
    "Verif.Const.import_fails",
    "Verif.Const.constants_partial",
    "Verif.Const.constants_order"
   ],
   "note": "The import fails for all values of the constants. constants_partial: any order of the assignments that can be executed gives the right values; constants_order: there is such an order. Exact reals."
  },
  {
   "property": "C123",
   "status": "partial",
   "theorems": [
    "Verif.Sdds.cut_call",
    "Verif.Sdds.cut_refused_partial",
    "Verif.Sdds.cut_selected_exact",
    "Verif.Sdds.cut_unbuffered_fails",
    "Verif.Sdds.cut_unbuffered_exact",
    "Verif.Sdds.header_cut_exact"
   ],
   "note": "False as stated. Buffered reading of all pages: proved for every cut within a page. Selected pages: the exact condition, so false if the broken page is passed over by its size. Cuts within the header: the exact outcome for every place (an exception, no end, or an empty file). Without buffer: the exact outcome for every cut (one byte of a page is ignored, cuts within parameters or string columns are refused, within columns of numbers the complete rows are given). A file without columns and pages with a white space byte in second place are not covered without buffer."
  },
  {
   "property": "C124",
   "status": "proved",
   "theorems": [
    "Verif.Plot.beamline_profile_shows",
    "Verif.Plot.beamline_profile_iff",
    "Verif.Plot.beamline_profile_page",
    "Verif.Plot.beamline_profile_default",
    "Verif.Plot.beamline_profile_axis",
    "Verif.Plot.beamline_profile_no_s",
    "Verif.Plot.beamline_profile_no_column"
   ],
   "note": "Exact: what is drawn whenever the function returns, and when it returns. Columns of one page have equal length (SDDS). Exact reals; matplotlib calls are recorded, not executed."
  },
  {
   "property": "C125",
   "status": "partial",
   "theorems": [
    "Verif.Plot.scatter_shows",
    "Verif.Plot.combo_shows",
    "Verif.Plot.contour_shows",
    "Verif.Plot.contour_iff",
    "Verif.Plot.contour_sparse_fails",
    "Verif.Plot.contour_axes_fails",
    "Verif.Plot.contour_axes_exact",
    "Verif.Plot.contour_axes_levels",
    "Verif.Plot.contour_one_level",
    "Verif.Plot.scatter_lengths",
    "Verif.Plot.scatter_axes_fails"
   ],
   "note": "Exact for arrays of particles: what is shown, and when contours are drawn. False (universally) for axis ranges and for at most 1 (combo: 8) particles; the scale named by the plot type is never set for contour and combo plots. The outline is a parameter; matplotlib before 3.5."
  },
  {
   "property": "C126",
   "status": "partial",
   "theorems": [
    "Verif.Bunch.hamiltonian_invariants",
    "Verif.Bunch.hamiltonian_rotation",
    "Verif.Bunch.hamiltonian_nonlinear",
    "Verif.Bunch.hamiltonian_kv",
    "Verif.Bunch.printed_consistent",
    "Verif.Bunch.printed_betay",
    "Verif.Bunch.printed_nonlinear_fails"
   ],
   "note": "Exact reals. The elliptic potential has no value at its two singular points and raises for c = 0. KV bunches: equal betas, no quiet start. For the integrable bunch the printed parameters are consistent after an assignment exactly if both alphas have the same square."
  },
  {
   "property": "C127",
   "status": "partial",
   "theorems": [
    "Verif.Sdds.record_fields_partial",
    "Verif.Sdds.record_length_fails",
    "Verif.Sdds.column_data_type",
    "Verif.Sdds.accessors_exact"
   ],
   "note": "Records: all binary files and all calls of read, without fields named record_length, for which the claim is false (universally). Accessors and data type of columns: binary and ASCII, exact."
  },
  {
   "property": "C128",
   "status": "partial",
   "theorems": [
    "Verif.Sdds.return_type_fails",
    "Verif.Sdds.get_entry_exact",
    "Verif.Sdds.get_entry_read",
    "Verif.Sdds.get_entry_fails",
    "Verif.Sdds.generator_exact",
    "Verif.Sdds.generator_pages"
   ],
   "note": "_return_type is wrong for every text that names a type. get_entry_from_parameters: exact for arrays of one field; false for later fields. Generator: exact, and the page loop with generators equals the one of C06."
  },
  {
   "property": "C129",
   "status": "partial",
   "theorems": [
    "Verif.Trace.trace_file_partial",
    "Verif.Trace.trace_name_unclosed",
    "Verif.Trace.trace_type_unknown"
   ],
   "note": "Exact elements for all files of well formed entries with distinct names, with an empty table of handlers. Missing: the last entry is lost, and without the table every file fails (C36)."
  },
  {
   "property": "C13",
   "status": "partial",
   "theorems": [
    "Verif.Sdds.explicit_mode_partial",
    "Verif.Sdds.explicit_zero_fails"
   ],
   "note": "mode=binary may be written out; no_row_counts=0 switches row counts off in every header."
  },
  {
   "property": "C130",
   "status": "partial",
   "theorems": [
    "Verif.Trace.bends_ok_iff",
    "Verif.Trace.bends_result",
    "Verif.Trace.bends_error_exact",
    "Verif.Trace.bends_shared_exact",
    "Verif.Trace.bends_partial",
    "Verif.Trace.bends_shared_fails",
    "Verif.Trace.bends_first_fails"
   ],
   "note": "Exact condition of acceptance, exact exceptions and exact result for lines of distinct elements; false for shared edges and for a bend at the start."
  },
  {
   "property": "C131",
   "status": "partial",
   "theorems": [
    "Verif.Lte.set_first_partial",
    "Verif.Lte.set_ignored",
    "Verif.Lte.set_capital_fails",
    "Verif.Lte.session_title",
    "Verif.Lte.new_call"
   ],
   "note": "For the first call and names in lower case (lines used at most once, as in C31). After the first call the chosen name is ignored: the first line is parsed again, or AssertionError. A name with a capital letter is never found. The beamline keeps the title given at the beginning, for all histories."
  },
  {
   "property": "C132",
   "status": "partial",
   "theorems": [
    "Verif.Lte.session_again_exact",
    "Verif.Lte.session_again_fails",
    "Verif.Lte.set_ignored",
    "Verif.Lte.new_call"
   ],
   "note": "False for every line of elements: k further calls give the elements k + 1 times. session_again_exact says for all lines what the calls give. Only the first call is right (new_call with C31)."
  },
  {
   "property": "C133",
   "status": "partial",
   "theorems": [
    "Verif.Sdds.readZ_read",
    "Verif.Sdds.selected_ends_partial",
    "Verif.Sdds.unbuffered_ends_partial",
    "Verif.Sdds.buffered_ends_partial",
    "Verif.Sdds.never_ends_iff",
    "Verif.Sdds.negative_rows_fails",
    "Verif.Sdds.ascii_ends_partial",
    "Verif.Sdds.ascii_open_ends",
    "Verif.Sdds.ascii_selected_ends"
   ],
   "note": "Proved for all ASCII files, for all calls with a list of pages, for all unbuffered binary files, and for buffered binary files without negative row counts. A buffered read() never ends exactly if two pages start at the same place; negative_rows_fails gives such files for every header with numeric columns whose row size divides the size of the parameters."
  },
  {
   "property": "C134",
   "status": "partial",
   "theorems": [
    "Verif.Switch.elegant_pages_fails",
    "Verif.Switch.elegant_single_rows_partial",
    "Verif.Switch.readElegantAll_one"
   ],
   "note": "False for all files with two or more pages of two or more rows. Proved for files whose pages have one row each: the particles of all pages are read in order, and the charge is the array of the charges of the pages (elegant_single_rows_partial); the wider model used there gives the same as the other one for single charges (readElegantAll_one)."
  },
  {
   "property": "C135",
   "status": "partial",
   "theorems": [
    "Verif.Switch.opal_datasets_exact",
    "Verif.Switch.opal_lengths",
    "Verif.Switch.opal_missing_dataset"
   ],
   "note": "Exactly the steps whose datasets have one value per particle or a single value are read, with exactly these values. The other direction of the claim is false for single values, which are repeated."
  },
  {
   "property": "C136",
   "status": "proved",
   "theorems": [
    "Verif.Warp.convert_text",
    "Verif.Warp.convert_ok_iff",
    "Verif.Warp.getFloat_error",
    "Verif.Warp.fieldMap_eq",
    "Verif.Warp.convertElem_iff"
   ],
   "note": "Over the reals. Exact text and exact condition of success."
  },
  {
   "property": "C137",
   "status": "partial",
   "theorems": [
    "Verif.Kinematic.command_line",
    "Verif.Kinematic.command_same",
    "Verif.Kinematic.command_ambiguous",
    "Verif.Kinematic.command_negative_fails",
    "Verif.Kinematic.command_attached_fails"
   ],
   "note": "Proved for all lists of settings in which values stand apart, behind an equal sign or directly behind a name of one letter, with full or abbreviated names. Whatever is accepted gives the result of the constructor (command_same, all argument lists). Beginnings of two long names are never accepted (command_ambiguous). False for negative numbers with exponent as an argument of their own and for values attached to -bg and -KE, which are never accepted. `float` is a parameter; the argument -- and text attached to -h are not modelled."
  },
  {
   "property": "C138",
   "status": "proved",
   "theorems": [
    "Verif.Bunch.kv_aperture",
    "Verif.Bunch.waterbag_aperture",
    "Verif.Bunch.gaussian_aperture"
   ],
   "note": "Exact reals; any root finder that returns roots. Energies above 1e10 and cutoffs from 1e10 are not modelled."
  },
  {
   "property": "C139",
   "status": "proved",
   "theorems": [
    "Verif.Kinematic.rounded_physical"
   ],
   "note": "Any rounding to nearest with 53 bits; no overflow or underflow; x**2 is a rounded product. Before the conversion of units."
  },
  {
   "property": "C14",
   "status": "partial",
   "theorems": [
    "Verif.Sdds.ascii_read_partial",
    "Verif.Sdds.ascii_buffered_fails",
    "Verif.Sdds.ascii_short_line_fails",
    "Verif.Sdds.ascii_buffered_gaps",
    "Verif.Sdds.ascii_buffered_lost"
   ],
   "note": "Proved for pages with equal positive numbers of rows, unbuffered, or buffered with one page or without columns. False for buffered files with two pages or more (as many lines as a table has rows are skipped behind it: ascii_buffered_gaps is what is read exactly, and a short second page is lost silently), and for unbuffered files whose first data line has one character. Text to float conversion and genfromtxt are modelled as described in DESIGN.md."
  },
  {
   "property": "C140",
   "status": "partial",
   "theorems": [
    "Verif.Kinematic.fast_partial",
    "Verif.Kinematic.fast_finite",
    "Verif.Kinematic.fast_fails"
   ],
   "note": "Up to 2^22 masses: the velocity to 2^-49, the others to 2^-48 times the square of gamma. Up to 2^25 masses all results are finite and the velocity is below c; from 2^27 masses on every result but the velocity is infinite. In between only C139 is proved."
  },
  {
   "property": "C141",
   "status": "partial",
   "theorems": [
    "Verif.Kinematic.value_back_partial",
    "Verif.Kinematic.kenergy_back_partial",
    "Verif.Kinematic.slow_fails",
    "Verif.Kinematic.kenergy_lost_fails"
   ],
   "note": "Velocity and energy come back to 2^-51, beta and gamma exactly, kinetic energies to 2^-50 times the whole energy (given momenta: C140). Every kinetic energy up to 2^-54 masses comes back as zero, and every velocity up to 2^-28 c has kinetic energy zero."
  },
  {
   "property": "C142",
   "status": "proved",
   "theorems": [
    "Verif.Stats6d.rounded_variance",
    "Verif.Stats6d.rounded_variance_equal"
   ],
   "note": "Any rounding to nearest with 53 bits; no overflow or underflow."
  },
  {
   "property": "C143",
   "status": "partial",
   "theorems": [
    "Verif.Phases.rounded_advance_partial",
    "Verif.Phases.advance_end_fails"
   ],
   "note": "The closed interval holds for all angles; the end is reached for all angles that differ by less than 2^-54 pi, the second being larger."
  },
  {
   "property": "C144",
   "status": "partial",
   "theorems": [
    "Verif.Sample.numeric_rounded_iff",
    "Verif.Sample.numeric_small_partial",
    "Verif.Sample.numeric_fails"
   ],
   "note": "Exact condition. True for up to 7 grid points; false for every grid of 8 different points or more and a positive distribution, every rounding. np.sum is modelled as the pairwise sum of numpy."
  },
  {
   "property": "C145",
   "status": "partial",
   "theorems": [
    "Verif.Sdds.free_read_partial",
    "Verif.Sdds.free_buffered_fails",
    "Verif.Sdds.free_comment_fails",
    "Verif.Sdds.free_skip_fails"
   ],
   "note": "True without buffer, and with buffer for one page or pages of one row (all pages with the same number of rows, at least one parameter and one column). False for all buffered files with two or more pages of two or more rows; for comments among the rows without buffer; and for passing over the only page of a buffered file."
  },
  {
   "property": "C146",
   "status": "proved",
   "theorems": [
    "Verif.Sdds.param_lookup",
    "Verif.Sdds.column_lookup"
   ],
   "note": "Headers on one line per namelist (Doc.Ok)."
  },
  {
   "property": "C147",
   "status": "partial",
   "theorems": [
    "Verif.Sdds.create_parameter_iff",
    "Verif.Sdds.create_column_iff",
    "Verif.Sdds.create_history",
    "Verif.Sdds.character_fails",
    "Verif.Sdds.fixed_blank_fails"
   ],
   "note": "Exact conditions and all histories proved. Never true for the documented type character and for fixed values that Python takes for false."
  },
  {
   "property": "C148",
   "status": "partial",
   "theorems": [
    "Verif.Sdds.uncounted_fails",
    "Verif.Sdds.uncounted_none_fails",
    "Verif.Sdds.uncounted_lines_fails"
   ],
   "note": "Exact result of read([0]) for all pages with the first zero byte within as many bytes as there are rows; TypeError if there is none. Without buffer the exact result for all pages with at most as many lines before the first blank one as there are rows."
  },
  {
   "property": "C149",
   "status": "partial",
   "theorems": [
    "Verif.Sdds.negative_numbers_fails",
    "Verif.Sdds.negative_strings_fails",
    "Verif.Sdds.negative_skip_fails"
   ],
   "note": "Never true: the exact results of read([0]) are proved, and of an unbuffered read() for numbers; passing over such a page raises OSError if the place is before the start of the file. Buffered counts of -1 to -2^31; unbuffered counts down to -57088, where the page is always seen."
  },
  {
   "property": "C15",
   "status": "partial",
   "theorems": [
    "Verif.Sdds.failed_save_fails"
   ],
   "note": "False for every writer with columns of different lengths: the file is emptied."
  },
  {
   "property": "C150",
   "status": "partial",
   "theorems": [
    "Verif.Nonlinear.generated_finite_partial",
    "Verif.Nonlinear.generated_nan_fails",
    "Verif.Nonlinear.insert_small_fails",
    "Verif.Nonlinear.insert_large_fails",
    "Verif.Nonlinear.insert_halves_fails"
   ],
   "note": "True for tangents between 2^-26 and 2^25 in magnitude and up to 2^50 slices, false below 2^-28 and above 2^28; between these nothing is proved. insert_halves_fails: phases k/2 with 0 < |k| <= 2^20 and any tangent right to one half of itself. No overflow or underflow."
  },
  {
   "property": "C151",
   "status": "proved",
   "theorems": [
    "Verif.Ptcls.design_rounded",
    "Verif.Ptcls.design_fast",
    "Verif.Ptcls.peak_rounded"
   ],
   "note": "Overflow and underflow are not modelled. design_fast: beta0 is exactly 1 from 2^27 masses on and below 1 up to 2^25 masses."
  },
  {
   "property": "C152",
   "status": "partial",
   "theorems": [
    "Verif.Ptcls.twiss_rounded_partial",
    "Verif.Ptcls.twiss_large_fails",
    "Verif.Ptcls.twiss_upright_fails",
    "Verif.Ptcls.twiss_map_partial"
   ],
   "note": "True with a relative error of 2^-50 (gamma + beta)^2 if gamma + beta is at most 2^24, false from 2^28 on; between these nothing is proved. Particles are right to five roundings of each term for given coefficients; the error of the angle is not bounded. No overflow or underflow."
  },
  {
   "property": "C153",
   "status": "partial",
   "theorems": [
    "Verif.Plot.profile_rounded_partial",
    "Verif.Plot.profile_touch_partial",
    "Verif.Plot.profile_overlap_fails"
   ],
   "note": "Edges and widths for all lines and scales that are not negative; overlaps are at most 2^-52 of the width. No overlap if magnets begin at zero or end before twice their start (Sterbenz); false for every longer magnet between half and whole units of the last place if ties go to even numbers. No overflow or underflow."
  },
  {
   "property": "C154",
   "status": "partial",
   "theorems": [
    "Verif.Ptcls.moments_rounded_partial",
    "Verif.Ptcls.moments_refused_iff",
    "Verif.Ptcls.moments_refused_fails"
   ],
   "note": "True up to a relative error of 2^-48 (1 + alpha^2) if 1 + alpha^2 is at most 2^40. Exact condition for the exception; false for a family of beams of 1 + alpha^2 about 2^53. The errors of the moments themselves are not bounded here. No overflow or underflow."
  },
  {
   "property": "C155",
   "status": "partial",
   "theorems": [
    "Verif.Sample.interp_rounded_partial",
    "Verif.Sample.interp_flat_fails"
   ],
   "note": "Samples are given if every weight is at least 2^-49 of the sum of the weights before it; ValueError for every distribution with a weight below 2^-55 of that sum; between these nothing is proved. Up to 2^52 grid points. What interp1d gives is not modelled."
  },
  {
   "property": "C156",
   "status": "partial",
   "theorems": [
    "Verif.Bunch.potential_number_partial",
    "Verif.Bunch.potential_outside_fails",
    "Verif.Bunch.potential_pole_fails",
    "Verif.Bunch.potential_formula",
    "Verif.Bunch.elliptic_formula"
   ],
   "note": "A number for every point with |x| at most c(1 - 2^-44) and |y| at most 2^39 c; nan at 2^k(1 - 2^-53) for c = 2^k and at 2^49 points of the axis beyond 3c. Nothing is proved for |x| above c in general. Accuracy: the potential from the elliptic part to 2^-50 of the magnitudes (potential_formula), the elliptic part from the elliptic coordinates to 2^-48 for u^2 at least 2 and v^2 at most 1/2 (elliptic_formula); not the coordinates themselves. arccosh and arccos are parameters; overflow is not modelled."
  },
  {
   "property": "C157",
   "status": "partial",
   "theorems": [
    "Verif.Stats6d.variance_accuracy_partial",
    "Verif.Stats6d.variance_pair_fails"
   ],
   "note": "Absolute error of the variance at most n 2^-48 M^2 and of the average at most n 2^-50 M for n up to 2^47 particles of size up to M. For every two particles that are neighbours (the first one even) the variance is twice the exact one. No overflow or underflow."
  },
  {
   "property": "C158",
   "status": "partial",
   "theorems": [
    "Verif.Lattice.edit_name_partial",
    "Verif.Lattice.edit_subline_fails",
    "Verif.Lattice.edit_nested_fails",
    "Verif.Lattice.edit_index_partial",
    "Verif.Lattice.edit_index_fails"
   ],
   "note": "Exact result for names and positions. Elements used in sub-beamlines only never change; with the name of a sub-beamline the elements before it change and AttributeError is raised. The printed warning is not modelled."
  },
  {
   "property": "C159",
   "status": "partial",
   "theorems": [
    "Verif.Stats6d.avg_accuracy_partial",
    "Verif.Stats6d.avg_two_partial",
    "Verif.Stats6d.avg_three_fails"
   ],
   "note": "Error bound for all arrays; range for one and two particles; for three equal particles with 53 bits ending in 10 above 4/3 of a power of two the average is out of the range for every rounding to nearest. Overflow and subnormal numbers are not modelled; rows are assumed to lie in one piece of memory."
  },
  {
   "property": "C16",
   "status": "partial",
   "theorems": [
    "Verif.Sdds.pages_aligned_partial",
    "Verif.Sdds.pages_aligned_iff",
    "Verif.Sdds.pages_shifted_fails"
   ],
   "note": "True exactly when no page is empty, with and without buffer; the place of every page in the columns is given; false for every file that starts with an empty page."
  },
  {
   "property": "C160",
   "status": "partial",
   "theorems": [
    "Verif.Lattice.length_accuracy_partial",
    "Verif.Lattice.edge_next_partial",
    "Verif.Lattice.edge_mono_partial",
    "Verif.Lattice.edge_thin_fails",
    "Verif.Lattice.length_order_fails"
   ],
   "note": "The model of C23 and C24 with rounded addition. Whole numbers as lengths are taken as doubles; overflow is not modelled."
  },
  {
   "property": "C161",
   "status": "partial",
   "theorems": [
    "Verif.Plot.histogram_total_partial",
    "Verif.Plot.histogram_bins_partial",
    "Verif.Plot.histogram_neighbours_fails",
    "Verif.Plot.current_rounded_partial"
   ],
   "note": "Both ways of numpy to guess the bin. Total and middle points for all data; counts and current when the number of bins times the size of the data is at most 2^50 times the spread; between that and neighbouring numbers nothing is said. Equal data, overflow and subnormal numbers are not covered."
  },
  {
   "property": "C162",
   "status": "partial",
   "theorems": [
    "Verif.Stats6d.correlations_rounded_symm",
    "Verif.Stats6d.correlations_accuracy_partial",
    "Verif.Stats6d.correlations_pair_fails"
   ],
   "note": "Symmetry, diagonal, error bound for the sum over all particles but the first; two opposite particles give half the covariance. Overflow and subnormal numbers are not modelled."
  },
  {
   "property": "C163",
   "status": "partial",
   "theorems": [
    "Verif.Switch.elegant_rounded_partial",
    "Verif.Switch.elegant_exact_partial",
    "Verif.Switch.elegant_changes_fails",
    "Verif.Switch.elegant_twice",
    "Verif.Switch.genesis_rounded_partial",
    "Verif.Switch.genesis_one"
   ],
   "note": "Error bound of the round trip, values that are recovered and values that are changed, a second round trip is exact, error bound of the genesis times. Overflow and subnormal numbers are not modelled; the columns of the file are doubles (C17)."
  },
  {
   "property": "C164",
   "status": "partial",
   "theorems": [
    "Verif.Stats6d.normalize_rounded_partial",
    "Verif.Stats6d.normalize_accuracy_partial",
    "Verif.Stats6d.normalize_pair_fails"
   ],
   "note": "Division by the root of the computed variance up to four roundings, by the rms up to the error of C157, order of the particles; two opposite particles do not get unit rms. Zero variances (inf and nan), overflow and subnormal numbers are not modelled."
  },
  {
   "property": "C165",
   "status": "partial",
   "theorems": [
    "Verif.Plot.picture_own_partial",
    "Verif.Plot.picture_two_fails",
    "Verif.Plot.picture_iff",
    "Verif.Plot.picture_each",
    "Verif.Plot.save_twice",
    "Verif.Plot.clear_last",
    "Verif.Plot.clear_two_fails"
   ],
   "note": "Proved for all programs in which one object plots (picture_own_partial) and for programs with any number of objects that save every plot at once (picture_each). False for several objects otherwise: the first plots of two objects are drawn on top of each other (picture_two_fails); the exact condition is picture_iff. A second picture is empty (save_twice). clear_plots closes the figure of the last plot only (clear_last, clear_two_fails). Over the reals; programs up to the first exception."
  },
  {
   "property": "C166",
   "status": "partial",
   "theorems": [
    "Verif.Bunch.rounded_quiet",
    "Verif.Bunch.rounded_extent",
    "Verif.Bunch.rounded_shell_partial"
   ],
   "note": "Sums of quiet starts are exactly zero, one after the other and as np.sum adds (eight sums and halves), for all draws (rounded_quiet). Bounds for all draws (rounded_extent). Invariants right to 2^-46 (1 + |alpha|) for |alpha| up to 2^40; as in exact arithmetic not for different beta functions nor for quiet starts with alpha (C56). cos and sin are parameters with squares adding up to 1 up to 2^-51; no overflow or underflow."
  },
  {
   "property": "C167",
   "status": "partial",
   "theorems": [
    "Verif.Ptcls.rounded_uniform_partial",
    "Verif.Ptcls.rounded_uniform_same",
    "Verif.Ptcls.rounded_uniform_fails",
    "Verif.Ptcls.rounded_gauss",
    "Verif.Ptcls.rounded_gauss_same"
   ],
   "note": "Gaussian part true as stated. Uniform part: coordinates are exact and squares add up to less than 1 + 2^-51; not always less than 1: for each particle number there are drawn numbers for which no particle is inside (rounded_uniform_fails). Same particles as in exact arithmetic unless a sum of squares is within 2^-51 of 1, or a square in the last 2^-53 below the limit. Before cleaning; x**2 is taken as x * x; no overflow or underflow."
  },
  {
   "property": "C168",
   "status": "partial",
   "theorems": [
    "Verif.SigFigs.sig_rounded_partial",
    "Verif.SigFigs.sig_unit",
    "Verif.SigFigs.sig_one",
    "Verif.SigFigs.sig_hundred_fails",
    "Verif.SigFigs.sig_small_fails",
    "Verif.SigFigs.sig_again"
   ],
   "note": "Next double: true for numbers from 1 to 10 and for one figure from 1 to below 10^22, false for three figures of every number from 114.51 to 115.49 (114.99999999999999) and one figure of every number from 0.000251 to 0.000349; for all numbers right to 2^-50. Twice: proved up to 15 figures when the exponent found again is the same or belongs to the next power of ten. What log10 and negative powers of ten give are parameters; the floor of log10 is assumed right for the argument. No overflow or underflow."
  },
  {
   "property": "C169",
   "status": "partial",
   "theorems": [
    "Verif.Bunch.potential_no_inf",
    "Verif.Bunch.nonlinear_quiet",
    "Verif.Bunch.nonlinear_extent",
    "Verif.Bunch.nonlinear_momentum",
    "Verif.Bunch.nonlinear_emit",
    "Verif.Bunch.nonlinear_shell"
   ],
   "note": "For all three distributions. Sums are exactly zero one after the other and as np.sum adds. y is bounded by what the root finder gave. That every particle lies below its energy is proved without quiet start, with the formula of its momentum; the energies are the emittance (KV), the emittance times the root of a drawn number (waterbag) and at most the emittance times the cutoff (Gaussian). The invariants of a particle add up to twice its energy less the elliptic part, to 2^-45 (1 + |alpha|), for |alpha| up to 2^40 without quiet start and for alpha zero with it (nonlinear_shell); quiet starts with alpha do not keep it (C56). No overflow or underflow; cos, sin, log, arccosh, arccos and the root finder are parameters."
  },
  {
   "property": "C17",
   "status": "partial",
   "theorems": [
    "Verif.Switch.elegant_round_partial",
    "Verif.Switch.elegant_single_fails"
   ],
   "note": "Through the bytes of the SDDS file, for any field of numbers, with the stored numbers exact doubles. Proved for 2 to 2^31-1 particles; a file with one particle or none cannot be read back (universal)."
  },
  {
   "property": "C170",
   "status": "partial",
   "theorems": [
    "Verif.Plot.rounded_levels",
    "Verif.Plot.rounded_cover_partial",
    "Verif.Plot.rounded_small_fails",
    "Verif.Plot.rounded_constant_fails"
   ],
   "note": "Levels increase strictly and are equidistant to 2^-50 of the bound for fields with a negative value or with values that differ after the multiplication. Cover: default arguments and a value of at least 0.011 in magnitude. False for every field up to 1/2201 in magnitude and every field without negative values whose extremes round to the same product, which for the default multiplier happens for different neighbouring doubles (example). No overflow or underflow."
  },
  {
   "property": "C171",
   "status": "partial",
   "theorems": [
    "Verif.Ptcls.offset_rounded",
    "Verif.Ptcls.offset_exact",
    "Verif.Ptcls.offset_large_fails",
    "Verif.Ptcls.offset_undo_partial",
    "Verif.Ptcls.multiply_rounded",
    "Verif.Ptcls.multiply_power",
    "Verif.Ptcls.rounded_refuses"
   ],
   "note": "Other components unchanged, one rounding per particle, order and average kept, for all offsets. The spread is kept exactly when a number within a factor of two of every value is taken off; false when the offset is above 2^54 times every value: all particles coincide and taking it off again gives zeros. Between the two ranges the bounds per particle, for the offset and for taking it off again, are proved. Factors of plus or minus a power of two scale the moments exactly and can be undone. Other indices are refused. No overflow or underflow."
  },
  {
   "property": "C172",
   "status": "partial",
   "theorems": [
    "Verif.Warp.gradient_accurate_partial",
    "Verif.Warp.gradient_slow_partial",
    "Verif.Warp.gradient_sign",
    "Verif.Warp.gradient_nan_fails",
    "Verif.Warp.gradient_rest"
   ],
   "note": "Accuracy of 2^-49 for quadrupoles and 2^-48 for sextupoles (of the strength times the square of the rigidity) for energies of at least twice the mass, 2^-31 and 2^-30 from a part of 2^-20 above the mass on; closer to the mass only the sign is proved. False for every energy below the mass, which lattice.py:54-64 passes for every beam with a momentum below the mass. Orders 1 and 2 only. No overflow or underflow."
  },
  {
   "property": "C173",
   "status": "partial",
   "theorems": [
    "Verif.Trace.rounded_win_length",
    "Verif.Trace.rounded_cavity_partial",
    "Verif.Trace.rounded_full_cell_fails"
   ],
   "note": "Whole files, to 2^-50 of the lengths in the lines. Cavity not negative when the gap is at least 2^-50 of the lengths; false without a gap: 19 mm with quadrupoles of 12 mm and 7 mm gives -2^-60 m with every rounding to nearest. float of the texts is any function. The sum of the lengths is exact; summing in double precision is C160. No overflow or underflow."
  },
  {
   "property": "C174",
   "status": "partial",
   "theorems": [
    "Verif.Decoherence.rounded_centroid",
    "Verif.Decoherence.rounded_zero_fails"
   ],
   "note": "To 2^-47 of the offset plus 2^-50 of the phases 2 pi n (|nu0| + |mu0|) of the turn; the bound by the offset holds for every turn without the phases. False for a coefficient of zero, which divides by zero. First order only. Turn numbers below 2^53. No overflow or underflow."
  },
  {
   "property": "C175",
   "status": "partial",
   "theorems": [
    "Verif.Trace.rounded_trace_partial",
    "Verif.Trace.rounded_arc"
   ],
   "note": "Every number to 7 * 2^-53. Missing: as for C129 the class has no table of handlers and the last entry is lost. rounded_arc: whatever the lines are, every bend has a non-negative length, |r * angle| of its own parameters to one rounding. No overflow or underflow."
  },
  {
   "property": "C176",
   "status": "partial",
   "theorems": [
    "Verif.Plot.rounded_pictures",
    "Verif.Plot.rounded_pictures_order",
    "Verif.Plot.rounded_pictures_equal_fails"
   ],
   "note": "Millimetres and milliradians to one rounding, picoseconds to 2^-44 of the largest time, deviations to 2^-44 of one plus the deviation; order in every picture. False for three particles of the same momentum of 53 bits ending in 10 above 4/3 of a power of two: all have the same deviation, not zero, for every rounding. The edges of the cells in double precision are not modelled here. No overflow or underflow."
  },
  {
   "property": "C177",
   "status": "partial",
   "theorems": [
    "Verif.Ptcls.gamma_rounded",
    "Verif.Ptcls.gamma_large_fails",
    "Verif.Ptcls.gamma_moments_partial",
    "Verif.Ptcls.gamma_zero_beta"
   ],
   "note": "To 2^-51 (1 + alpha^2) for all alpha and beta, gamma with the sign of beta; false for every alpha of 26 bits from 2^27 on and powers of two as beta: exactly zero. Moments to a relative error of K 2^-45, K a bound of 1 + alpha^2 up to 2^40. A beta of zero raises ZeroDivisionError for Python floats; numpy floats give inf. No overflow or underflow."
  },
  {
   "property": "C178",
   "status": "partial",
   "theorems": [
    "Verif.Decoherence.rounded_integrand",
    "Verif.Decoherence.rounded_integrand_outside",
    "Verif.Decoherence.rounded_quadrature"
   ],
   "note": "The bound to a factor 1 + 2^-48; the distance from the exact integrand with 2^-50 of the phase of the tune and (1 + 2^-53)^(7 k + 8) - 1 of the sizes of the k terms of the advance. Sums with nonnegative weights over it, as quad forms them, are bounded and accurate in the same way (rounded_quadrature); quad itself is not modelled; no overflow or underflow."
  },
  {
   "property": "C179",
   "status": "partial",
   "theorems": [
    "Verif.Decoherence.array_integrand",
    "Verif.Decoherence.array_integrand_partial",
    "Verif.Decoherence.array_cutoff_fails",
    "Verif.Decoherence.array_single",
    "Verif.Decoherence.rounded_array",
    "Verif.Decoherence.rounded_array_single",
    "Verif.Decoherence.rounded_array_fails"
   ],
   "note": "Exact result for all arrays. An entry at 2 pi n gives zero in an array, not as a float. An array of one entry gives a number if it lies beyond 2 pi n or there are no coefficients. The same in double precision with the rounded cutoff (rounded_array), given the same functions for numbers and arrays. Empty arrays as in NumPy from 2.2 on."
  },
  {
   "property": "C18",
   "status": "proved",
   "theorems": [
    "Verif.Switch.first_stays",
    "Verif.Switch.first_wins",
    "Verif.Switch.failed_read"
   ],
   "note": "Any sequence of read calls with any names, formats and outcomes."
  },
  {
   "property": "C19",
   "status": "partial",
   "theorems": [
    "Verif.Switch.formats",
    "Verif.Switch.supported_formats_partial",
    "Verif.Switch.genesis_fails",
    "Verif.Switch.writable"
   ],
   "note": "Exact set of readable formats; genesis is advertised and never readable."
  },
  {
   "property": "C20",
   "status": "partial",
   "theorems": [
    "Verif.Switch.opal_step_partial",
    "Verif.Switch.opal_last_partial",
    "Verif.Switch.opal_zero_fails",
    "Verif.Switch.opal_missing"
   ],
   "note": "Any file; group names that end in a digit are steps. Step 0 cannot be selected."
  },
  {
   "property": "C21",
   "status": "proved",
   "theorems": [
    "Verif.Switch.genesis_file"
   ],
   "note": "Text of the whole file; exact field of characteristic zero; number formatting is a parameter."
  },
  {
   "property": "C22",
   "status": "proved",
   "theorems": [
    "Verif.Lattice.elements_in_order",
    "Verif.Lattice.elements_iff",
    "Verif.Lattice.unfold_replace",
    "Verif.Lattice.unfold_elements",
    "Verif.Lattice.elements_add",
    "Verif.Lattice.elements_add_line"
   ],
   "note": "All histories of calls, all nestings; recursion depth bounded by the number of beamlines."
  },
  {
   "property": "C23",
   "status": "proved",
   "theorems": [
    "Verif.Lattice.length_measures",
    "Verif.Lattice.length_flat",
    "Verif.Lattice.length_defined"
   ],
   "note": "All histories of calls; length raises exactly when an L is text."
  },
  {
   "property": "C24",
   "status": "partial",
   "theorems": [
    "Verif.Lattice.edge_first_use",
    "Verif.Lattice.edge_position_partial",
    "Verif.Lattice.edge_repeated_fails"
   ],
   "note": "edge is the position of the first use; false for the second use of every element with non-zero distance between uses."
  },
  {
   "property": "C25",
   "status": "partial",
   "theorems": [
    "Verif.Lattice.one_definition_partial",
    "Verif.Lattice.history_partial",
    "Verif.Lattice.add_again",
    "Verif.Lattice.one_definition_iff",
    "Verif.Lattice.uses_registered",
    "Verif.Lattice.subline_definitions_fails"
   ],
   "note": "Proved for all histories without subline=True, with refinement to names plus one definition per name. With subline=True: the exact condition for every further call in every state, and every use is of the element of the object or of one that contains it."
  },
  {
   "property": "C26",
   "status": "partial",
   "theorems": [
    "Verif.Lattice.param_last_value",
    "Verif.Lattice.param_spelling",
    "Verif.Lattice.param_get_fails"
   ],
   "note": "True for []; .get and in fail for every spelling that is not lower case."
  },
  {
   "property": "C27",
   "status": "partial",
   "theorems": [
    "Verif.Lattice.yaml_flat_partial",
    "Verif.Lattice.load_exact",
    "Verif.Lattice.yaml_iff",
    "Verif.Lattice.yaml_sublines_fails",
    "Verif.Lattice.yaml_name_fails",
    "Verif.Lattice.yaml_keys_fails"
   ],
   "note": "Exact result of loading every file and exact condition for all beamlines, any nesting: one use of a sub-beamline or no elements in them, and one definition per name at the top and in the sub-beamlines. False for all beamlines with a parameter called name, type, self, element_name or element_type (yaml_keys_fails)."
  },
  {
   "property": "C28",
   "status": "partial",
   "theorems": [
    "Verif.Lattice.matrix_symbols",
    "Verif.Lattice.matrix_succeeds_iff",
    "Verif.Lattice.matrix_common_partial",
    "Verif.Lattice.matrix_own_partial",
    "Verif.Lattice.matrix_arguments",
    "Verif.Lattice.matrix_values_fails"
   ],
   "note": "Order and table proved for all beamlines; own values never inserted: false for every beamline of drifts, true when all elements share the values put into the symbols."
  },
  {
   "property": "C29",
   "status": "proved",
   "theorems": [
    "Verif.Lte.rpn_value",
    "Verif.Lte.rpn_reject",
    "Verif.Lte.rpn_reject_behind",
    "Verif.Lte.rpn_underflow",
    "Verif.Lte.rpn_pi_near"
   ],
   "note": "Every expression tree, any spacing and quotes; a bad number anywhere in an expression, in front of it or behind it is a ValueError; an operation without operands is an IndexError; pi is within 3e-16 of the number, and the rounding of float()."
  },
  {
   "property": "C30",
   "status": "partial",
   "theorems": [
    "Verif.Lte.repetition_partial",
    "Verif.Lte.repetition_blank_fails",
    "Verif.Lte.repetition_group_fails"
   ],
   "note": "Any two texts for the same names (repeated names and groups, any nesting of lines) give the same result or the same exception after any number of rounds. False with white space in front of a factor and for groups that start with a repeated name: TypeError for every such line."
  },
  {
   "property": "C31",
   "status": "partial",
   "theorems": [
    "Verif.Lte.sequence_iff",
    "Verif.Lte.file_sequence_iff",
    "Verif.Lte.sequence_partial",
    "Verif.Lte.file_sequence_partial",
    "Verif.Lte.sequence_repeat_fails",
    "Verif.Lte.parse_acts"
   ],
   "note": "The claim holds for exactly those lines whose expansion uses no line twice (sequence_iff, file_sequence_iff); otherwise there are too many elements. Names, types and parameters, any nesting, for lines used at most once. A line used k times gives its elements k*k times (universal statement). parse_acts gives the exact result for every use. file_sequence_partial goes from the lines of the file to the elements."
  },
  {
   "property": "C32",
   "status": "partial",
   "theorems": [
    "Verif.Lte.comment_line_partial",
    "Verif.Lte.comment_file_partial",
    "Verif.Lte.blank_line",
    "Verif.Lte.comment_end_fails",
    "Verif.Lte.comment_tail_exact",
    "Verif.Lte.comment_tail_partial",
    "Verif.Lte.comment_tail_fails"
   ],
   "note": "Comment lines change nothing when a line with content follows, otherwise IndexError for every file. End-of-line comments change only white space at the end of lines, but without the newline a bare definition loses the last letter of its type (all such definitions)."
  },
  {
   "property": "C33",
   "status": "partial",
   "theorems": [
    "Verif.Lte.variables_partial",
    "Verif.Lte.variable_stored",
    "Verif.Lte.variable_inside_fails",
    "Verif.Lte.variable_start_fails",
    "Verif.Lte.variable_of_variable_fails"
   ],
   "note": "Whole words are replaced and nothing else if no other word contains a name and the line does not start with one; false otherwise (universal statements). A definition that uses another variable is a ValueError."
  },
  {
   "property": "C34",
   "status": "partial",
   "theorems": [
    "Verif.Lte.definition_exact",
    "Verif.Lte.definition_partial",
    "Verif.Lte.definition_text_fails",
    "Verif.Lte.definition_bare_exact",
    "Verif.Lte.definition_bare_partial",
    "Verif.Lte.definition_bare_fails",
    "Verif.Lte.definition_colon_fails"
   ],
   "note": "Any number of parameters, numbers as RPN expressions or text. False for text at the end of a line with a newline, for a bare type without newline and for a colon in a parameter (universal statements)."
  },
  {
   "property": "C35",
   "status": "partial",
   "theorems": [
    "Verif.Trace.numbers_partial",
    "Verif.Trace.numbers_fails",
    "Verif.Trace.number_read_iff",
    "Verif.Trace.numbers_exact"
   ],
   "note": "Element lines with any number of numerals. Read correctly exactly if there is no exponent and a negative number has digits behind the point (or is zero); the exact list of texts found is given for all numerals."
  },
  {
   "property": "C36",
   "status": "partial",
   "theorems": [
    "Verif.Trace.entries_fails",
    "Verif.Trace.entries_last_fails",
    "Verif.Trace.parseFile_count"
   ],
   "note": "False for every file: Trace3d has no attribute `handlers`, so only files with one entry are read and give an empty beamline. With an empty table of handlers the last entry is lost."
  },
  {
   "property": "C37",
   "status": "partial",
   "theorems": [
    "Verif.Trace.cavities_converted",
    "Verif.Trace.cavity_length_exact",
    "Verif.Trace.cavity_length_two",
    "Verif.Trace.cavity_length_partial",
    "Verif.Trace.cavity_phase_last",
    "Verif.Trace.cavity_phase_partial",
    "Verif.Trace.cavity_phase_fails"
   ],
   "note": "The total length shrinks by the own lengths of the cavities that do not directly follow a cavity (cavity_length_exact, so preserved iff these add up to zero); a beamline of a cavity and one drift counts the drift twice. Beamlines as the parser makes them are converted exactly if every cavity is followed by an element that is not a cavity; KeyError and IndexError otherwise (cavities_converted). Total length preserved for any number of cavities (elements used once, no own length of cavities, not exactly two elements). All cavities end with the phase of the last cavity (universal); correct only for equal phases."
  },
  {
   "property": "C38",
   "status": "partial",
   "theorems": [
    "Verif.Import.import_partial",
    "Verif.Import.import_elements",
    "Verif.Import.import_ok_iff",
    "Verif.Import.import_cycle_fails",
    "Verif.Import.import_repeated_fails",
    "Verif.Import.import_reversed_fails",
    "Verif.Import.import_unknown",
    "Verif.Import.import_numbers",
    "Verif.Import.import_first"
   ],
   "note": "Exact elements of every imported line, exact condition for the import, and the exceptions. The claim is proved, with success of the import, for lattices in which no line uses a line twice, names in a line are unique and reversed lines have elements only. A line used n times in a line gives n*n copies; a line inside a reversed line is not reversed."
  },
  {
   "property": "C39",
   "status": "partial",
   "theorems": [
    "Verif.Warp.warp_partial",
    "Verif.Warp.warp_exact",
    "Verif.Warp.warp_again_fails",
    "Verif.Warp.warp_empty_fails",
    "Verif.Warp.warp_error"
   ],
   "note": "Exact text for the first call and for a writer in any state; later calls write no definitions; empty beamlines give no assignment. Errors characterised."
  },
  {
   "property": "C40",
   "status": "partial",
   "theorems": [
    "Verif.Warp.gradient_partial",
    "Verif.Warp.gradient_exact",
    "Verif.Warp.gradient_fails"
   ],
   "note": "Over the reals. Correct for quadrupoles; for sextupoles exactly if the strength is 0 or the rigidity 0 or 1."
  },
  {
   "property": "C41",
   "status": "proved",
   "theorems": [
    "Verif.Kinematic.converter_roundtrip"
   ],
   "note": "Every input kind, all unit choices, physical inputs (spec Physical), exact reals."
  },
  {
   "property": "C42",
   "status": "proved",
   "theorems": [
    "Verif.Kinematic.converter_physical"
   ],
   "note": "All consistency equations at the first call."
  },
  {
   "property": "C43",
   "status": "partial",
   "theorems": [
    "Verif.Kinematic.converter_unit_independent",
    "Verif.Kinematic.converter_physical",
    "Verif.Kinematic.output_labels",
    "Verif.Kinematic.input_label",
    "Verif.Kinematic.mass_label",
    "Verif.Kinematic.printed_input_iff",
    "Verif.Kinematic.reported_mass_iff",
    "Verif.Kinematic.reported_electron_iff",
    "Verif.Kinematic.reported_input_exact",
    "Verif.Kinematic.reported_input_SI_fails",
    "Verif.Kinematic.reported_mass_fails",
    "Verif.Kinematic.reported_input_fails",
    "Verif.Kinematic.zero_mass_replaced"
   ],
   "note": "Values are unit independent and carry the right factor. The reported mass and input are right in exactly the cases given; false otherwise (universal)."
  },
  {
   "property": "C44",
   "status": "partial",
   "theorems": [
    "Verif.Kinematic.calls_idempotent_partial",
    "Verif.Kinematic.calls_SI_iff",
    "Verif.Kinematic.calls_SI_exact",
    "Verif.Kinematic.calls_SI_fails"
   ],
   "note": "True for eV output; false for SI output: exact condition for a second call and exact values of every call (they are converted again each time)."
  },
  {
   "property": "C45",
   "status": "proved",
   "theorems": [
    "Verif.Kinematic.init_ok_iff"
   ],
   "note": "Exact condition for __init__ to succeed."
  },
  {
   "property": "C46",
   "status": "proved",
   "theorems": [
    "Verif.Stats6d.variance_correct",
    "Verif.Stats6d.variance_empty"
   ],
   "note": "Every non-empty array."
  },
  {
   "property": "C47",
   "status": "partial",
   "theorems": [
    "Verif.Stats6d.statistics_overwrite",
    "Verif.Stats6d.statistics_twice_iff",
    "Verif.Stats6d.variance_overwrites",
    "Verif.Stats6d.variance_pure_partial",
    "Verif.Stats6d.variance_twice_exact",
    "Verif.Stats6d.variance_smaller_fails",
    "Verif.Stats6d.variance_twice_fails"
   ],
   "note": "False: the first particle is overwritten by the mean. Exact effect, exact condition for purity, exact answer of the second call (smaller unless the first particle is at the mean)."
  },
  {
   "property": "C48",
   "status": "partial",
   "theorems": [
    "Verif.Stats6d.sub_avg_centers",
    "Verif.Stats6d.normalize_rms_partial",
    "Verif.Stats6d.normalize_rms_exact",
    "Verif.Stats6d.normalize_rms_iff",
    "Verif.Stats6d.normalize_rms_fails"
   ],
   "note": "Centering proved. Exact variance after normalising; it is one exactly if the first particle is at the mean."
  },
  {
   "property": "C49",
   "status": "partial",
   "theorems": [
    "Verif.Stats6d.correlations_exact",
    "Verif.Stats6d.correlations_partial",
    "Verif.Stats6d.correlations_iff",
    "Verif.Stats6d.correlations_fails",
    "Verif.Stats6d.rm_correlations_partial",
    "Verif.Stats6d.rm_correlations_exact",
    "Verif.Stats6d.rm_correlations_fails",
    "Verif.Stats6d.cov_psd"
   ],
   "note": "Off-diagonal entries lack the contribution of the first particle: exact formula and exact condition. Exact covariances left by rm_correlations6d in terms of the rotation and the first particle."
  },
  {
   "property": "C50",
   "status": "partial",
   "theorems": [
    "Verif.Stats6d.jacobi_correct",
    "Verif.Stats6d.jacobi_invariant",
    "Verif.Stats6d.jacobi_symmetric_iff",
    "Verif.Stats6d.jacobi_orthonormal",
    "Verif.Stats6d.jacobi_symmetric_fails"
   ],
   "note": "True for symmetric positive semidefinite input (every covariance matrix): orthogonality and similarity after any number of sweeps, eigen decomposition on return. For other symmetric matrices the vectors are orthonormal, and they are eigenvectors exactly if no entry is dropped by the test for negligible entries; a matrix for which one is dropped is given, so the claim is false there."
  },
  {
   "property": "C51",
   "status": "proved",
   "theorems": [
    "Verif.SigFigs.sig_error",
    "Verif.SigFigs.sig_sign",
    "Verif.SigFigs.sig_mono",
    "Verif.SigFigs.sig_fixed",
    "Verif.SigFigs.sig_twice"
   ],
   "note": "Exact reals; the decimal logarithm is exact."
  },
  {
   "property": "C52",
   "status": "proved",
   "theorems": [
    "Verif.Sample.cdf_table",
    "Verif.Sample.inverse_interval",
    "Verif.Sample.inverse_weight"
   ],
   "note": "Any linearly ordered field; exact interval of numbers for every entry."
  },
  {
   "property": "C53",
   "status": "partial",
   "theorems": [
    "Verif.Ptcls.make_twiss_partial",
    "Verif.Ptcls.make_twiss_fails",
    "Verif.Ptcls.make_twiss_refuses",
    "Verif.Ptcls.make_twiss_short_fails",
    "Verif.Ptcls.beam_twiss_iff",
    "Verif.Ptcls.make_twiss_long"
   ],
   "note": "Exact reals, unit moments at the start. Proved except for planes with negative alpha and gamma equal to beta, where the sign of alpha is lost."
  },
  {
   "property": "C54",
   "status": "partial",
   "theorems": [
    "Verif.Ptcls.calc_twiss_partial",
    "Verif.Ptcls.calc_twiss_refuses",
    "Verif.Ptcls.calc_twiss_fails",
    "Verif.Ptcls.twiss_round_partial"
   ],
   "note": "True if the first particle is at the average (it is overwritten otherwise)."
  },
  {
   "property": "C55",
   "status": "partial",
   "theorems": [
    "Verif.Bunch.standard_consistent",
    "Verif.Bunch.read_partial",
    "Verif.Bunch.read_betay_fails",
    "Verif.Bunch.nonlinear_consistent_partial",
    "Verif.Bunch.nonlinear_gamma_fails",
    "Verif.Bunch.nonlinear_betay_read"
   ],
   "note": "Standard: consistent after every history; reading betay gives betax. Nonlinear: gammay is computed with alphax."
  },
  {
   "property": "C56",
   "status": "partial",
   "theorems": [
    "Verif.Bunch.kv_shell_partial",
    "Verif.Bunch.kv_betay_fails",
    "Verif.Bunch.kv_quiet_fails",
    "Verif.Bunch.kv_refuses"
   ],
   "note": "For every root finder and all draws. Proved for equal beta functions, and for quiet starts without alpha; false for all other beta functions and alphas."
  },
  {
   "property": "C57",
   "status": "partial",
   "theorems": [
    "Verif.Bunch.quiet_centred",
    "Verif.Bunch.quiet_exact"
   ],
   "note": "Exact condition: a positive multiple of four; the particle number zero raises ValueError."
  },
  {
   "property": "C58",
   "status": "proved",
   "theorems": [
    "Verif.Bunch.potential_defined",
    "Verif.Bunch.potential_singular",
    "Verif.Bunch.potential_even",
    "Verif.Bunch.potential_linear"
   ],
   "note": "Exact reals."
  },
  {
   "property": "C59",
   "status": "proved",
   "theorems": [
    "Verif.Nonlinear.drift_beta",
    "Verif.Nonlinear.slices_symmetric",
    "Verif.Nonlinear.strengths",
    "Verif.Nonlinear.generate_refuses"
   ],
   "note": "Exact reals."
  },
  {
   "property": "C60",
   "status": "partial",
   "theorems": [
    "Verif.Phases.clockwise_advance",
    "Verif.Phases.counterclockwise_advance_partial",
    "Verif.Phases.counterclockwise_zero_fails"
   ],
   "note": "Clockwise proved; counterclockwise proved except for equal directions, where 2 pi is returned instead of 0."
  },
  {
   "property": "C61",
   "status": "partial",
   "theorems": [
    "Verif.Phases.tune_range",
    "Verif.Phases.tune_refuses",
    "Verif.Phases.pure_tone_partial",
    "Verif.Phases.pure_tone_default_partial",
    "Verif.Phases.offset_tone_fails",
    "Verif.Phases.column_fails",
    "Verif.Phases.column_tone_fails",
    "Verif.Phases.tune_turns"
   ],
   "note": "Exact reals, exact DFT. Range proved; pure tones proved for every offset below half the amplitude; false with an offset of at least half the amplitude and for arrays of shape (n, 1)."
  },
  {
   "property": "C62",
   "status": "partial",
   "theorems": [
    "Verif.Decoherence.any_order",
    "Verif.Decoherence.first_order",
    "Verif.Decoherence.second_order_partial",
    "Verif.Decoherence.second_order_fails",
    "Verif.Decoherence.zero_coefficient_fails",
    "Verif.Decoherence.centroids_partial",
    "Verif.Decoherence.turn_zero",
    "Verif.Decoherence.negative_turn_fails"
   ],
   "note": "Exact reals and integrals. Any order and first order (coefficient not 0) proved; second order proved for a positive coefficient, NaN for a negative one."
  },
  {
   "property": "C63",
   "status": "partial",
   "theorems": [
    "Verif.Plot.balanced",
    "Verif.Plot.plain_text",
    "Verif.Plot.greek_fails",
    "Verif.Plot.command_refuses",
    "Verif.Plot.balanced_iff",
    "Verif.Plot.own_braces_fails"
   ],
   "note": "Exact for all strings. False for symbols with unbalanced braces of their own; proved for symbols without braces."
  },
  {
   "property": "C64",
   "status": "partial",
   "theorems": [
    "Verif.Plot.rectangles",
    "Verif.Plot.no_overlap",
    "Verif.Plot.profile_refuses",
    "Verif.Plot.overlap_iff",
    "Verif.Plot.overlap_fails"
   ],
   "note": "Exact reals. False for lines that begin before zero with a magnet; exact condition."
  },
  {
   "property": "C65",
   "status": "proved",
   "theorems": [
    "Verif.Plot.current_total",
    "Verif.Plot.current_refuses"
   ],
   "note": "Exact reals; also for equal times."
  },
  {
   "property": "C66",
   "status": "proved",
   "theorems": [
    "Verif.Plot.limits_contain",
    "Verif.Plot.plot_contains",
    "Verif.Plot.plot_empty",
    "Verif.Plot.scatter_refuses"
   ],
   "note": "Exact reals."
  },
  {
   "property": "C67",
   "status": "proved",
   "theorems": [
    "Verif.Lattice.transfer_motion",
    "Verif.Lattice.transfer_split",
    "Verif.Lattice.matrix_symplectic",
    "Verif.Lattice.typeMatrix_eval"
   ],
   "note": "Complex symbols for the symplectic form, real ones for the equations of motion; K1 = 0 in a quadrupole is nan in SymPy and excluded."
  },
  {
   "property": "C68",
   "status": "partial",
   "theorems": [
    "Verif.Trace.comments_partial",
    "Verif.Trace.comments_end_fails"
   ],
   "note": "Exact result of cleaning for all files that do not end with a comment line; all others raise IndexError."
  },
  {
   "property": "C69",
   "status": "partial",
   "theorems": [
    "Verif.Trace.frequency_fails",
    "Verif.Trace.win_ncells_exact",
    "Verif.Trace.win_field_map_exact",
    "Verif.Trace.win_dtl_exact",
    "Verif.Trace.win_ncells_refused",
    "Verif.Trace.win_field_map_fails"
   ],
   "note": "Exact result of each handler when a frequency is set. False for every file that is read: no element gets a frequency from a FREQ line (the line becomes an element of its own)."
  },
  {
   "property": "C70",
   "status": "proved",
   "theorems": [
    "Verif.Trace.win_names"
   ],
   "note": ""
  },
  {
   "property": "C71",
   "status": "proved",
   "theorems": [
    "Verif.Trace.win_length"
   ],
   "note": "Any list of lines; for any additive commutative group of numbers."
  },
  {
   "property": "C72",
   "status": "partial",
   "theorems": [
    "Verif.Warp.central_momentum_fails",
    "Verif.Warp.elegantToWarp_ok"
   ],
   "note": "False for every beam: the gradient is that of the total energy P. For momenta of at least the mass."
  },
  {
   "property": "C73",
   "status": "partial",
   "theorems": [
    "Verif.Warp.supported_partial",
    "Verif.Warp.supported_fails"
   ],
   "note": "True for the other types; false for every lattice with an element of one of the six types."
  },
  {
   "property": "C74",
   "status": "partial",
   "theorems": [
    "Verif.Switch.write_default_partial",
    "Verif.Switch.write_default_fails",
    "Verif.Switch.write_default_other_fails",
    "Verif.Switch.write_default_iff",
    "Verif.Switch.write_default_species"
   ],
   "note": "True exactly if the first species has the default name or an equal one has it."
  },
  {
   "property": "C75",
   "status": "partial",
   "theorems": [
    "Verif.Switch.opal_step_partial",
    "Verif.Switch.opal_charge_fails"
   ],
   "note": "True unless TotalCharge is zero; then AssertionError or the other attribute."
  },
  {
   "property": "C76",
   "status": "partial",
   "theorems": [
    "Verif.Switch.elegant_momentum_fails",
    "Verif.Switch.opal_momentum_fails"
   ],
   "note": "Exact condition: true for a particle only if it has no transverse momentum."
  },
  {
   "property": "C77",
   "status": "proved",
   "theorems": [
    "Verif.Switch.opal_export"
   ],
   "note": "Number formatting is a parameter."
  },
  {
   "property": "C78",
   "status": "partial",
   "theorems": [
    "Verif.Switch.elegant_kind_partial",
    "Verif.Switch.elegant_kind_fails"
   ],
   "note": "Electrons only; all other species come back as electrons."
  },
  {
   "property": "C79",
   "status": "partial",
   "theorems": [
    "Verif.Sample.args_partial",
    "Verif.Sample.args_zero_fails"
   ],
   "note": "True except for the number zero."
  },
  {
   "property": "C80",
   "status": "partial",
   "theorems": [
    "Verif.Sample.sample_random_partial",
    "Verif.Sample.sample_halton_fails",
    "Verif.Sample.sample_refuses"
   ],
   "note": "Numeric inversion only; halton gives an array of shape (n, 1)."
  },
  {
   "property": "C81",
   "status": "proved",
   "theorems": [
    "Verif.Switch.elegant_no_charge"
   ],
   "note": "One page, at least two particles."
  },
  {
   "property": "C82",
   "status": "partial",
   "theorems": [
    "Verif.Ptcls.uniform_inside",
    "Verif.Ptcls.uniform_coordinates",
    "Verif.Ptcls.gauss_cut_partial",
    "Verif.Ptcls.gauss_cut_fails",
    "Verif.Ptcls.distrib_refuses",
    "Verif.Ptcls.distrib_kind_fails"
   ],
   "note": "Uniform: proved. Gaussian: bound for factors of at least one; the cut is at the square root of the factor. Unknown kinds raise AttributeError."
  },
  {
   "property": "C83",
   "status": "partial",
   "theorems": [
    "Verif.Ptcls.clean_partial",
    "Verif.Ptcls.clean_mean",
    "Verif.Ptcls.clean_first",
    "Verif.Ptcls.clean_fails",
    "Verif.Ptcls.clean_variance",
    "Verif.Ptcls.clean_unit_iff"
   ],
   "note": "Exact condition: averages are zero iff the first particle was at the average; then all moments are right."
  },
  {
   "property": "C84",
   "status": "proved",
   "theorems": [
    "Verif.Ptcls.relativistic"
   ],
   "note": "Exact reals."
  },
  {
   "property": "C85",
   "status": "proved",
   "theorems": [
    "Verif.Ptcls.offset_moments",
    "Verif.Ptcls.multiply_moments",
    "Verif.Ptcls.component_refuses"
   ],
   "note": "Exact reals."
  },
  {
   "property": "C86",
   "status": "partial",
   "theorems": [
    "Verif.Bunch.args_partial",
    "Verif.Bunch.args_betay_fails",
    "Verif.Bunch.args_error",
    "Verif.Bunch.nonlinear_args_partial",
    "Verif.Bunch.nonlinear_cutoff_fails",
    "Verif.Bunch.cutoff_setter_fails"
   ],
   "note": "True without betay and cutoff; false with them (universal)."
  },
  {
   "property": "C87",
   "status": "partial",
   "theorems": [
    "Verif.Bunch.beta_sign_partial",
    "Verif.Bunch.beta_sign_fails",
    "Verif.Bunch.beta_zero_fails",
    "Verif.Bunch.beta_history",
    "Verif.Bunch.nonlinear_beta_history",
    "Verif.Bunch.beta_positive_iff"
   ],
   "note": "True for positive constructor arguments and assignments that do not raise. Exact values after any history of assignments with errors caught."
  },
  {
   "property": "C88",
   "status": "partial",
   "theorems": [
    "Verif.Bunch.kv_emittance_fails",
    "Verif.Bunch.kv_shell_partial"
   ],
   "note": "False: every matched KV bunch has twice the emittance."
  },
  {
   "property": "C89",
   "status": "partial",
   "theorems": [
    "Verif.Bunch.gaussian_partial",
    "Verif.Bunch.gaussian_fails",
    "Verif.Bunch.gaussian_matched_iff"
   ],
   "note": "Drawn numbers with unit variance and no correlation. True for alpha zero, otherwise false."
  },
  {
   "property": "C90",
   "status": "partial",
   "theorems": [
    "Verif.Bunch.nonlinear_kv",
    "Verif.Bunch.nonlinear_waterbag",
    "Verif.Bunch.nonlinear_gaussian",
    "Verif.Bunch.nonlinear_used",
    "Verif.Bunch.nonlinear_planes_fails"
   ],
   "note": "False for different beta functions, exactly. Proved for equal beta functions and no quiet start; for different ones with the horizontal function in both planes, which is the one the code uses, and for quiet starts with alpha zero. Energies above 1e10 not modelled."
  },
  {
   "property": "C91",
   "status": "partial",
   "theorems": [
    "Verif.Bunch.emittance_ignored_fails",
    "Verif.Bunch.nonlinear_kv"
   ],
   "note": "True for KV; for the other two the arguments have no influence."
  },
  {
   "property": "C92",
   "status": "partial",
   "theorems": [
    "Verif.Bunch.nonlinear_quiet_fails"
   ],
   "note": "False for all arguments."
  },
  {
   "property": "C93",
   "status": "proved",
   "theorems": [
    "Verif.Bunch.longitudinal_only",
    "Verif.Bunch.ids_kept"
   ],
   "note": "Standard bunches; any history of calls, also when they raise."
  },
  {
   "property": "C94",
   "status": "partial",
   "theorems": [
    "Verif.Nonlinear.phase_partial",
    "Verif.Nonlinear.phase_fails"
   ],
   "note": "True below one half; false above (universal)."
  },
  {
   "property": "C95",
   "status": "partial",
   "theorems": [
    "Verif.Nonlinear.set_c_fails",
    "Verif.Nonlinear.madx_elements"
   ],
   "note": "Elements proved; the assignment never has an effect."
  },
  {
   "property": "C96",
   "status": "partial",
   "theorems": [
    "Verif.Decoherence.centroids_partial",
    "Verif.Decoherence.last_turn_fails"
   ],
   "note": "False for all N: N results, turns 0 to N-1."
  },
  {
   "property": "C97",
   "status": "proved",
   "theorems": [
    "Verif.Decoherence.centroid_bound",
    "Verif.Decoherence.no_spread",
    "Verif.Decoherence.first_order_decay"
   ],
   "note": "Exact reals and integrals."
  },
  {
   "property": "C98",
   "status": "partial",
   "theorems": [
    "Verif.Bunch.elliptic_history",
    "Verif.Bunch.elliptic_refuses",
    "Verif.Bunch.elliptic_sign_partial",
    "Verif.Bunch.elliptic_sign_fails"
   ],
   "note": "Histories proved; the constructor accepts any values and the setters accept zero."
  },
  {
   "property": "C99",
   "status": "partial",
   "theorems": [
    "Verif.Bunch.total_emittance_partial",
    "Verif.Bunch.total_emittance_fails"
   ],
   "note": "True after construction and Twiss assignments; exact condition after set_transverse_coordinates."
  }
 ]
}
