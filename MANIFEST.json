{
 "claims": [
  {
   "property": "C01",
   "status": "proved",
   "theorems": [
    "Verif.Leb128.C01_uleb_exact",
    "Verif.Leb128.C01_uleb_unterminated",
    "Verif.Leb128.C01_uleb_total",
    "Verif.Leb128.C01_uleb_local",
    "Verif.Leb128.C01_uleb_empty_is_ub"
   ],
   "note": "Exact, bounded and exhaustive; the no-byte-available case is shown to be out of bounds."
  },
  {
   "property": "C02",
   "status": "partial",
   "theorems": [
    "Verif.Leb128.C02_sleb_exact_partial",
    "Verif.Leb128.C02_sleb_value_partial",
    "Verif.Leb128.C02_sleb_unterminated",
    "Verif.Leb128.C02_sleb_total",
    "Verif.Leb128.C02_sleb_local",
    "Verif.Leb128.C02_sleb_violation"
   ],
   "note": "False as stated: ten-byte numbers (values outside [-2^62,2^62)) are not decoded (violation theorem). Proved for every number of at most nine bytes."
  },
  {
   "property": "C03",
   "status": "proved",
   "theorems": [
    "Verif.Leb128.C03_uleb_roundtrip"
   ],
   "note": "Round trip for every 32-bit number in any context."
  },
  {
   "property": "C04",
   "status": "partial",
   "theorems": [
    "Verif.Leb128.C04_sleb_roundtrip_iff_partial",
    "Verif.Leb128.C04_sleb_violation",
    "Verif.Leb128.encSleb_fuel"
   ],
   "note": "False as stated (64 is written as -64). Exact characterisation of the numbers that round trip."
  },
  {
   "property": "C05",
   "status": "partial",
   "theorems": [
    "Verif.Mem.C05_unsigned",
    "Verif.Mem.C05_signed",
    "Verif.Mem.C05_three",
    "Verif.Mem.C05_addr",
    "Verif.Mem.C05_three_inc_violation",
    "Verif.Mem.C05_three_inc_partial"
   ],
   "note": "All readers except the advancing three-byte one are exact for every host/file order; read_3ubyte_unaligned_inc drops the third byte (violation theorem, exact characterisation)."
  },
  {
   "property": "C06",
   "status": "proved",
   "theorems": [
    "Verif.Hash.C06_elf_hash",
    "Verif.Hash.C06_elf_hash_range"
   ],
   "note": "Equality with the 32-bit gABI hash for all strings, and range."
  },
  {
   "property": "C07",
   "status": "proved",
   "theorems": [
    "Verif.Hash.C07_gnu_hash"
   ],
   "note": ""
  },
  {
   "property": "C08",
   "status": "proved",
   "theorems": [
    "Verif.Hash.C08_crc_value",
    "Verif.Hash.C08_crc_append",
    "Verif.Hash.C08_crc_file",
    "Verif.Hash.C08_crc_file_ok"
   ],
   "note": "Bitwise specification, composition over splits, and crc32_file for every mmap/pread behaviour."
  },
  {
   "property": "C09",
   "status": "proved",
   "theorems": [
    "Verif.Prime.C09_next_prime",
    "Verif.Prime.C09_next_prime_exists",
    "Verif.Prime.C09_small_seeds",
    "Verif.Prime.isPrime_correct"
   ],
   "note": "Least prime at or above the seed, for all seeds from 4 to 2^63; small seeds shown to need the bound."
  },
  {
   "property": "C10",
   "status": "proved",
   "theorems": [
    "Verif.DynHash.C10_table_is_map",
    "Verif.DynHash.C10_zero_one_conflated",
    "Verif.DynHash.C10_alloc_failure_violation"
   ],
   "note": "Refinement to an association list for all operation sequences, allocation succeeding; hash values 0 and 1 are one key; a failed calloc in a resize is shown to lead to an out-of-bounds read."
  },
  {
   "property": "C100",
   "status": "partial",
   "theorems": [
    "Verif.Maps.C100_maps_partial",
    "Verif.Maps.C100_vdso_partial",
    "Verif.Maps.C100_bad_partial",
    "Verif.Maps.C100_inode_violation",
    "Verif.Maps.C100_names_violation"
   ],
   "note": "Partial: inode numbers from 2^63 on all stand for 2^63-1 (C100_inode_violation); one file under two names in a row makes the whole report fail (C100_names_violation)."
  },
  {
   "property": "C101",
   "status": "partial",
   "theorems": [
    "Verif.Auxv.C101_auxv64_partial",
    "Verif.Auxv.C101_auxv32_partial",
    "Verif.Auxv.C101_report_partial",
    "Verif.Auxv.C101_missing",
    "Verif.Auxv.C101_again_violation",
    "Verif.Auxv.C101_unreadable_violation"
   ],
   "note": "Partial: a 64-bit process without a vDSO whose page size is known is taken for a 32-bit one (C101_again_violation); an executable that cannot be read makes the second report fail (C101_unreadable_violation)."
  },
  {
   "property": "C102",
   "status": "partial",
   "theorems": [
    "Verif.Offline.C102_layout",
    "Verif.Offline.C102_prelaid_partial",
    "Verif.Offline.C102_segments_partial",
    "Verif.Offline.C102_apart_partial",
    "Verif.Offline.C102_align_violation",
    "Verif.Offline.C102_prelink_violation",
    "Verif.Offline.C102_exec_violation",
    "Verif.Offline.C102_noalign_violation",
    "Verif.Offline.C102_lower_violation"
   ],
   "note": "Layout of relocatable files without addresses is proved in full (C102_layout). Segments of programs and libraries, relocatable files with addresses, and sequences of files are partial: the negation is proved for alignments of more than 64 KiB, libraries linked at high addresses, programs among other files, p_align 0, and sections with addresses below the first one."
  },
  {
   "property": "C103",
   "status": "partial",
   "theorems": [
    "Verif.Funcs.C103_getfuncs",
    "Verif.Funcs.C103_resume_partial",
    "Verif.Funcs.C103_twice_violation",
    "Verif.Funcs.C103_union_violation",
    "Verif.Funcs.C103_other"
   ],
   "note": "Full for one call, from the start or resumed. Resuming until the end is proved when no DIE is imported twice; with a unit imported twice it never ends (violation). Functions in DIEs the walk does not enter, such as unions, are left out (violation)."
  },
  {
   "property": "C104",
   "status": "partial",
   "theorems": [
    "Verif.Bkpt.C104_sound",
    "Verif.Bkpt.C104_plain_partial",
    "Verif.Bkpt.C104_marked_partial",
    "Verif.Bkpt.C104_nolines",
    "Verif.Bkpt.C104_first_violation",
    "Verif.Bkpt.C104_same_violation",
    "Verif.Bkpt.C104_norow_violation",
    "Verif.Bkpt.C104_stale_violation",
    "Verif.Bkpt.C104_again_violation"
   ],
   "note": "Soundness for every table and every number of ranges. Completeness is proved for functions of one range whose start has exactly one row. Violations: marks after the first row are missed for the first function of the table; several rows at the start; no row at the start; an earlier error or an earlier call changes the result."
  },
  {
   "property": "C105",
   "status": "partial",
   "theorems": [
    "Verif.Scopevar.C105_name",
    "Verif.Scopevar.C105_declared_partial",
    "Verif.Scopevar.C105_directory_violation",
    "Verif.Scopevar.C105_prefix_violation",
    "Verif.Scopevar.C105_second_violation",
    "Verif.Scopevar.C105_empty_violation"
   ],
   "note": "Full for lookups by name, with any number of scopes to skip. With a place, proved when no scope has two variables of the name and paths are equal to the given one or do not begin with it. Violations: files in directories, prefixes, second variable, scopes without children."
  },
  {
   "property": "C106",
   "status": "partial",
   "theorems": [
    "Verif.Retval.C106_value_partial",
    "Verif.Retval.C106_void",
    "Verif.Retval.C106_total",
    "Verif.Retval.C106_complex_violation",
    "Verif.Retval.C106_float128_violation",
    "Verif.Retval.C106_sse_violation",
    "Verif.Retval.C106_complexfloat_violation",
    "Verif.Retval.C106_reference_violation",
    "Verif.Retval.C106_typedef_violation",
    "Verif.Retval.C106_member_violation"
   ],
   "note": "Proved for integers, enumerations, pointers, float, double, long double, structures of class INTEGER and those returned in memory. Violations for all other types: complex numbers, __float128, structures with SSE eightbytes, references, typedefs of void, pointers to member functions. The classification of structures is taken as given."
  },
  {
   "property": "C107",
   "status": "partial",
   "theorems": [
    "Verif.Nlist.C107_nlist_partial",
    "Verif.Nlist.C107_fail",
    "Verif.Nlist.C107_bad",
    "Verif.Nlist.C107_lost_violation",
    "Verif.Nlist.C107_crash_violation"
   ],
   "note": "Proved for all tables and lists in which no name has ELF hash 0; termination and correctness of double hashing in a table of prime size for any number of names. Violations: names with hash 0, such as Hxyiinp, are not found, or make the search dereference NULL."
  },
  {
   "property": "C108",
   "status": "partial",
   "theorems": [
    "Verif.Checksum.C108_checksum_partial",
    "Verif.Checksum.C108_strip_partial",
    "Verif.Checksum.C108_changed_violation",
    "Verif.Checksum.C108_unreadable_violation",
    "Verif.Checksum.C108_gap_violation"
   ],
   "note": "Proved for unchanged sections of opened files and for created ones without gaps; stripping any non-permanent sections keeps the checksum. Violations: data added to or changed in an opened file is ignored, padding between blocks is not included, unreadable sections are skipped without error."
  },
  {
   "property": "C109",
   "status": "partial",
   "theorems": [
    "Verif.Linkmap.C109_chain_partial",
    "Verif.Linkmap.C109_truncated_violation",
    "Verif.Linkmap.C109_leak_violation",
    "Verif.Linkmap.C109_safe_partial",
    "Verif.Linkmap.C109_wrap_violation",
    "Verif.Linkmap.C109_unreadable"
   ],
   "note": "Chains shorter than the number of segment boundaries and files that have a dynamic segment; nothing readable in the first bytes of the address space. Violations: longer chains are cut off silently; a descriptor is lost for a file without dynamic segment; the buffer check wraps around for an element at the end of the address space."
  },
  {
   "property": "C11",
   "status": "proved",
   "theorems": [
    "Verif.DynHash.C11_lookup_ends",
    "Verif.DynHash.C11_probe_covers"
   ],
   "note": ""
  },
  {
   "property": "C110",
   "status": "partial",
   "theorems": [
    "Verif.Rdebug.C110_format_partial",
    "Verif.Rdebug.C110_found_partial",
    "Verif.Rdebug.C110_safe_partial",
    "Verif.Rdebug.C110_format_violation",
    "Verif.Rdebug.C110_division_violation",
    "Verif.Rdebug.C110_overrun_violation"
   ],
   "note": "Vectors in which nothing looks like AT_PHENT before AT_PHENT, no executable given and no modules reported before. Violations: a 64-bit vector with the value 0x2000000004 is taken for a 32-bit one; a second AT_PHENT of 0 leads to a division by zero and one of 1 to reads beyond the buffer."
  },
  {
   "property": "C111",
   "status": "partial",
   "theorems": [
    "Verif.Errno.C111_errors_partial",
    "Verif.Errno.C111_any",
    "Verif.Errno.C111_null_violation",
    "Verif.Errno.C111_forgotten_violation",
    "Verif.Errno.C111_stale_violation",
    "Verif.Errno.C111_asm_table_violation",
    "Verif.Errno.C111_asm_zero_violation",
    "Verif.Errno.C111_unknown"
   ],
   "note": "Proved for every interleaving, except for the requests for which the claim is false: libdwfl errors attributed to libelf without one pending (NULL or a stale message), asking libdwfl twice for the latest message (forgotten), asm_errmsg(0), and asm_errmsg with numbers from 11 on (read outside the table)."
  },
  {
   "property": "C112",
   "status": "partial",
   "theorems": [
    "Verif.Strip.C112_links",
    "Verif.Strip.C112_members",
    "Verif.Strip.C112_order",
    "Verif.Strip.C112_only",
    "Verif.Strip.C112_kept_partial",
    "Verif.Strip.C112_loaded",
    "Verif.Strip.C112_keep_partial",
    "Verif.Strip.C112_untouched",
    "Verif.Strip.C112_debug_partial",
    "Verif.Strip.C112_debug_symbols",
    "Verif.Strip.C112_safe",
    "Verif.Strip.C112_before_violation",
    "Verif.Strip.C112_group_before_violation",
    "Verif.Strip.C112_group_violation",
    "Verif.Strip.C112_extended_violation",
    "Verif.Strip.C112_debug_violation",
    "Verif.Strip.C112_keep_group_violation",
    "Verif.Strip.C112_loaded_debug_violation"
   ],
   "note": "References, order, members, 'nothing else stays', loaded sections, untouched files, symbols for the debug file and termination are proved in full. 'What is needed stays' and the debug file are proved except for relocation sections, groups and removed sections in front of a section that stays only because of a reference, for which they are false, and for groups the user asks to keep. Kept symbol tables with SHT_SYMTAB_SHNDX are refused, and groups get members 0."
  },
  {
   "property": "C113",
   "status": "partial",
   "theorems": [
    "Verif.Stripsym.C113_table_partial",
    "Verif.Stripsym.C113_relocs_partial",
    "Verif.Stripsym.C113_group_partial",
    "Verif.Stripsym.C113_versions_partial",
    "Verif.Stripsym.C113_found_partial",
    "Verif.Stripsym.C113_info_partial",
    "Verif.Stripsym.C113_accepts_partial",
    "Verif.Stripsym.C113_accepts_strip_partial",
    "Verif.Stripsym.C113_hash",
    "Verif.Stripsym.C113_hash_safe_partial",
    "Verif.Stripsym.C113_info_violation",
    "Verif.Stripsym.C113_info_loaded_violation",
    "Verif.Stripsym.C113_lost_reloc_violation",
    "Verif.Stripsym.C113_reserved_violation",
    "Verif.Stripsym.C113_hash64_violation",
    "Verif.Stripsym.C113_range_partial"
   ],
   "note": "Proved for files with up to 65280 sections; above that absolute symbols are taken for symbols of a section. sh_info is proved if a global symbol stays and no symbol of a loaded table becomes undefined; it is wrong otherwise. Relocations of removed symbols silently get symbol 0. Hash tables of 64-bit words with less than two words are read outside their bounds."
  },
  {
   "property": "C114",
   "status": "partial",
   "theorems": [
    "Verif.Remote.C114_rebuild_partial",
    "Verif.Remote.C114_copied_partial",
    "Verif.Remote.C114_reject",
    "Verif.Remote.C114_order_violation",
    "Verif.Remote.C114_noload_violation",
    "Verif.Remote.C114_small_violation",
    "Verif.Remote.C114_wrap_violation",
    "Verif.Remote.C114_product_violation",
    "Verif.Remote.C114_short_violation",
    "Verif.Remote.C114_empty_violation",
    "Verif.Remote.C114_hole_violation"
   ],
   "note": "Proved: a mapped file is rebuilt completely (ascending, non-empty segments; headers in the first one), memory safety and the origin of every copied byte for any memory with ascending segments, rejection of other data. The code writes outside its buffer for unordered segments, for tables without loadable segment and for segments shorter than the header; it uses bytes before its buffer for an offset near 2^64 and bytes that were never set; it overflows an int; it fails on an empty segment; and keeps a section header table that lies in a hole: these are the violation theorems."
  },
  {
   "property": "C115",
   "status": "proved",
   "theorems": [
    "Verif.Filenote.C115_found",
    "Verif.Filenote.C115_absent",
    "Verif.Filenote.C115_sound"
   ],
   "note": "Any note: reads stay inside and a name belongs to a mapping with the right start and offset 0. Notes as the kernel writes them: the exact condition for a name."
  },
  {
   "property": "C116",
   "status": "partial",
   "theorems": [
    "Verif.Segrep.C116_bounds_partial",
    "Verif.Segrep.C116_bias_partial",
    "Verif.Segrep.C116_covers_partial",
    "Verif.Segrep.C116_size_partial",
    "Verif.Segrep.C116_image_partial",
    "Verif.Segrep.C116_verbatim_partial",
    "Verif.Segrep.C116_sections_violation",
    "Verif.Segrep.C116_contiguous_violation",
    "Verif.Segrep.C116_bias_violation",
    "Verif.Segrep.C116_wrap_violation"
   ],
   "note": "Bounds, bias, size and image proved for segments that do not pass 2^64; violations: section headers lost from the image, contiguity judged without the bias, bias of a segment not at offset 0, offsets that wrap."
  },
  {
   "property": "C117",
   "status": "partial",
   "theorems": [
    "Verif.Buildnote.C117_found_partial",
    "Verif.Buildnote.C117_absent_partial",
    "Verif.Buildnote.C117_first_partial",
    "Verif.Buildnote.C117_sound",
    "Verif.Buildnote.C117_terminates_partial",
    "Verif.Buildnote.C117_hang_violation",
    "Verif.Buildnote.C117_beyond_violation"
   ],
   "note": "First build ID found, none made up, reported ones are there, the loop ends unless a size is near 4 GiB; violations: endless loop, notes beyond the segment."
  },
  {
   "property": "C118",
   "status": "partial",
   "theorems": [
    "Verif.Buildnote.C118_found_partial",
    "Verif.Buildnote.C118_module_partial",
    "Verif.Buildnote.C118_absent_partial",
    "Verif.Buildnote.C118_second_violation",
    "Verif.Buildnote.C118_name_violation",
    "Verif.Buildnote.C118_short_violation",
    "Verif.Buildnote.C118_files_violation"
   ],
   "note": "Found when it is the first note of the first file with notes; violations for every other position."
  },
  {
   "property": "C119",
   "status": "partial",
   "theorems": [
    "Verif.Unzip.C119_plain",
    "Verif.Unzip.C119_compressed_partial",
    "Verif.Unzip.C119_image_partial",
    "Verif.Unzip.C119_refused_partial",
    "Verif.Unzip.C119_sound",
    "Verif.Unzip.C119_endless_violation",
    "Verif.Unzip.C119_short_violation",
    "Verif.Unzip.C119_large_violation",
    "Verif.Unzip.C119_leak_violation"
   ],
   "note": "Proved for files and contents below 2 GiB (gzip: 1 GiB) when memory suffices. Violated: a truncated bzip2 file is read for ever; a gzip file is cut off without an error when the buffer cannot grow; gzip contents above 1 GiB are refused; three buffers are lost for a file that can be neither mapped nor decompressed."
  },
  {
   "property": "C12",
   "status": "proved",
   "theorems": [
    "Verif.Strtab.C12_handles_resolve"
   ],
   "note": "Every history of additions; strings are NUL-terminated byte lists (embedded NULs allowed). newstring's memory-block arithmetic is not modelled."
  },
  {
   "property": "C120",
   "status": "partial",
   "theorems": [
    "Verif.Dwbegin.C120_sections",
    "Verif.Dwbegin.C120_opened",
    "Verif.Dwbegin.C120_corrupt",
    "Verif.Dwbegin.C120_errors",
    "Verif.Dwbegin.C120_group_violation",
    "Verif.Dwbegin.C120_mixed_violation"
   ],
   "note": "Proved for opening without a section group. Violated: opening a section group always reads one word behind the group's data; sections of a skeleton and of its .dwo part are mixed when both are in a file."
  },
  {
   "property": "C121",
   "status": "partial",
   "theorems": [
    "Verif.Nextlines.C121_cu_sound",
    "Verif.Nextlines.C121_cu_partial",
    "Verif.Nextlines.C121_split_partial",
    "Verif.Nextlines.C121_progress",
    "Verif.Nextlines.C121_next",
    "Verif.Nextlines.C121_walk",
    "Verif.Nextlines.C121_own_violation",
    "Verif.Nextlines.C121_split_violation"
   ],
   "note": "The walk is proved complete. Violated for single calls: the unit passed in is never returned even if it owns the table; a split unit is not found when a unit behind it is passed in."
  },
  {
   "property": "C122",
   "status": "partial",
   "theorems": [
    "Verif.Getmods.C122_call",
    "Verif.Getmods.C122_resume_partial",
    "Verif.Getmods.C122_walk_partial",
    "Verif.Getmods.C122_table_partial",
    "Verif.Getmods.C122_dropped",
    "Verif.Getmods.C122_order_violation",
    "Verif.Getmods.C122_overlap_violation",
    "Verif.Getmods.C122_discard_violation"
   ],
   "note": "Proved for every offset, table and callback what one call visits (call, dropped); for tables in which each module's back pointer leads to it, and callbacks that do not discard the table, that resuming starts at the next module and that a whole sequence of calls visits each module once in order (resume, walk); and that the table built by reify_segments is such a table when no segments were reported and modules do not overlap or touch (table). Violations: with reported segments and modules out of order the back pointers are not corrected, so a module is skipped; a module overlaid by later ones is skipped; a callback that discards the table in a resumed call makes the returned value wrong."
  },
  {
   "property": "C123",
   "status": "partial",
   "theorems": [
    "Verif.Declfile.C123_lines_partial",
    "Verif.Declfile.C123_files_partial",
    "Verif.Declfile.C123_decl_partial",
    "Verif.Declfile.C123_decl_split_partial",
    "Verif.Declfile.C123_split_violation",
    "Verif.Declfile.C123_foreign_violation",
    "Verif.Declfile.C123_skeleton_violation",
    "Verif.Declfile.C123_history_violation"
   ],
   "note": "Proved by an invariant over all sequences of calls, for units that share a table only with units of the same directory and address size: lines and files are the specified ones (lines, files); dwarf_decl_file is right for units that are not split and attributes of the same unit (decl), and for split units after a successful dwarf_getsrcfiles (decl_split). Violations: for split units dwarf_decl_file otherwise fails an assertion (split, for all such units and histories); a number inherited from another unit is looked up in the wrong table (foreign); a split unit's own files are not used when the skeleton has no lines (skeleton); units that share a table but not the directory get names that depend on who asked first (history)."
  },
  {
   "property": "C124",
   "status": "partial",
   "theorems": [
    "Verif.Altsplit.C124_path",
    "Verif.Altsplit.C124_id",
    "Verif.Altsplit.C124_alt",
    "Verif.Altsplit.C124_alt_once",
    "Verif.Altsplit.C124_split",
    "Verif.Altsplit.C124_split_once",
    "Verif.Altsplit.C124_set",
    "Verif.Altsplit.C124_buildid_violation",
    "Verif.Altsplit.C124_setalt_violation"
   ],
   "note": "Proved for all inputs: the path of a file (and that it fits the memory), the path for a build ID, which alternate file and which split unit is found, which paths are tried in which order, that later calls do nothing, and that descriptors and handles are released. Two parts of the statement are false and disproved: the build ID of the file that is found is not checked, and dwarf_setalt with the file that was found leaves a released handle in place. The file system is a function from paths to files; reading .gnu_debugaltlink and the units of a file are parameters (see C91, C46)."
  },
  {
   "property": "C125",
   "status": "partial",
   "theorems": [
    "Verif.Phdr.C125_new",
    "Verif.Phdr.C125_load_partial",
    "Verif.Phdr.C125_table_partial",
    "Verif.Phdr.C125_create_partial",
    "Verif.Phdr.C125_modify_partial",
    "Verif.Phdr.C125_nohdr_violation",
    "Verif.Phdr.C125_class_violation",
    "Verif.Phdr.C125_other_violation",
    "Verif.Phdr.C125_remove_violation",
    "Verif.Phdr.C125_zeroth_violation",
    "Verif.Phdr.C125_mapped_violation",
    "Verif.Phdr.C125_entsize_violation",
    "Verif.Phdr.C125_negative_violation",
    "Verif.Phdr.C125_small_violation"
   ],
   "note": "Proved for any sequence of calls on a new file, and on an existing file that is read through a descriptor or converted: the handle behaves like a table, changes are marked, nothing undefined happens. Left out there: negative numbers for gelf_update_phdr, the function of the other class on a loaded table, removing a table that has not been loaded, mapped files in host byte order, section headers that have not been read, an unusual e_phentsize; for each of these the statement is disproved."
  },
  {
   "property": "C126",
   "status": "partial",
   "theorems": [
    "Verif.Objnote.C126_props_partial",
    "Verif.Objnote.C126_sdt",
    "Verif.Objnote.C126_sdt_refused",
    "Verif.Objnote.C126_strings",
    "Verif.Objnote.C126_abi",
    "Verif.Objnote.C126_overrun_violation",
    "Verif.Objnote.C126_wrap_violation",
    "Verif.Objnote.C126_stack32_violation",
    "Verif.Objnote.C126_stack64_violation",
    "Verif.Objnote.C126_sdt_violation"
   ],
   "note": "Proved: C126_props_partial (all lists of well-formed properties, except stack sizes of four bytes and of 32-bit files), C126_sdt (all probes), C126_sdt_refused (other versions, short notes, notes with fewer than two zero bytes), C126_strings (build IDs, linker versions, other owners), C126_abi (all ABI tags). Violated: C126_overrun_violation and C126_wrap_violation (data sizes of properties are not checked: reads behind the end), C126_stack32_violation (an uninitialised half is printed), C126_stack64_violation (the remaining properties are not shown), C126_sdt_violation (arguments without zero byte: read behind the end). Missing: functions of the machines, the text around the values."
  },
  {
   "property": "C127",
   "status": "partial",
   "theorems": [
    "Verif.Pidattach.C127_attach_partial",
    "Verif.Pidattach.C127_ways",
    "Verif.Pidattach.C127_calls_partial",
    "Verif.Pidattach.C127_read32_partial",
    "Verif.Pidattach.C127_read32_violation",
    "Verif.Pidattach.C127_wait_violation",
    "Verif.Pidattach.C127_registers_violation",
    "Verif.Pidattach.C127_nested_violation",
    "Verif.Pidattach.C127_threads_partial",
    "Verif.Pidattach.C127_threads_parse",
    "Verif.Pidattach.C127_threads_violation"
   ],
   "note": "Proved: C127_attach_partial and C127_ways (all courses of attaching), C127_calls_partial (all sequences of calls for 64-bit processes, all memories, whether or not process_vm_readv works), C127_read32_partial (32-bit words read without process_vm_readv), C127_threads_partial, C127_threads_parse. Violated: C127_read32_violation (with process_vm_readv reads from 32-bit processes give eight bytes), C127_wait_violation (the thread stays traced if waiting fails), C127_registers_violation (the thread stays stopped if the backend cannot get the registers, and the next call aborts), C127_nested_violation (frames of a thread from a frame callback: abort), C127_threads_violation (threads from a thread callback end the outer iteration). Missing: the parsing of /proc/PID/status, failing readdir; dwfl_getthread_frames does not check that the TID belongs to the process."
  },
  {
   "property": "C128",
   "status": "partial",
   "theorems": [
    "Verif.Disasm.C128_bpf_partial",
    "Verif.Disasm.C128_stop_partial",
    "Verif.Disasm.C128_skip_violation",
    "Verif.Disasm.C128_bounds",
    "Verif.Disasm.C128_invalid",
    "Verif.Disasm.C128_far_violation",
    "Verif.Disasm.C128_str_partial",
    "Verif.Disasm.C128_overflow_violation",
    "Verif.Disasm.C128_room_violation"
   ],
   "note": "Violated: the target of a jump is cut to 32 bits; an instruction that the output function refuses is skipped; disasm_str writes behind the end of the buffer from the second instruction on, and refuses texts it has room for. Proved: all programs with jumps below 4 GiB, all byte sequences (bounds), invalid codes, refusals, and disasm_str with one instruction. Not modelled: the x86 disassembler."
  },
  {
   "property": "C129",
   "status": "partial",
   "theorems": [
    "Verif.Locdie.C129_unit_partial",
    "Verif.Locdie.C129_info_partial",
    "Verif.Locdie.C129_refused_partial",
    "Verif.Locdie.C129_xderef_violation",
    "Verif.Locdie.C129_end_violation",
    "Verif.Locdie.C129_types_violation",
    "Verif.Locdie.C129_call",
    "Verif.Locdie.C129_variable",
    "Verif.Locdie.C129_pointer",
    "Verif.Locdie.C129_block",
    "Verif.Locdie.C129_none",
    "Verif.Locdie.C129_constx",
    "Verif.Locdie.C129_addrx_partial",
    "Verif.Locdie.C129_addr4_violation",
    "Verif.Locdie.C129_behind_violation",
    "Verif.Locdie.C129_before_violation"
   ],
   "note": "Violated: DW_OP_xderef_type is not relative to the unit; the end of the unit is accepted as an entry; offsets in .debug_info are looked up in .debug_types for type units; addresses of four bytes are read as eight; indexes are not checked, so reads behind and in front of .debug_addr. Proved: everything else, for all operations and operands. dwarf_attr is a parameter, all units have been read."
  },
  {
   "property": "C13",
   "status": "proved",
   "theorems": [
    "Verif.Strtab.C13_same_handle",
    "Verif.Strtab.C13_suffix_free",
    "Verif.Strtab.C13_final_size"
   ],
   "note": "Same handle for repeats at any later point; suffixes cost no bytes; size produced equals the total."
  },
  {
   "property": "C130",
   "status": "partial",
   "theorems": [
    "Verif.Attach.C130_leader",
    "Verif.Attach.C130_module",
    "Verif.Attach.C130_noarch",
    "Verif.Attach.C130_given",
    "Verif.Attach.C130_bad",
    "Verif.Attach.C130_code",
    "Verif.Attach.C130_fails",
    "Verif.Attach.C130_conflict",
    "Verif.Attach.C130_history",
    "Verif.Attach.C130_backend_partial",
    "Verif.Attach.C130_own",
    "Verif.Attach.C130_freed_violation",
    "Verif.Attach.C130_stale_error_violation"
   ],
   "note": "Proved in full: the process named by Tgid, refusals, codes, balance over all histories. The backend stays usable only while no new report is begun (C130_backend_partial) or when it belongs to the process (C130_own); a new report frees a borrowed backend (C130_freed_violation). The error that dwfl_pid reports may be that of an earlier attempt (C130_stale_error_violation)."
  },
  {
   "property": "C131",
   "status": "partial",
   "theorems": [
    "Verif.Regs.C131_names_partial",
    "Verif.Regs.C131_range_partial",
    "Verif.Regs.C131_bounds_partial",
    "Verif.Regs.C131_distinct_partial",
    "Verif.Regs.C131_identifier_partial",
    "Verif.Regs.C131_uniform_partial",
    "Verif.Regs.C131_report_partial",
    "Verif.Regs.C131_stop_partial",
    "Verif.Regs.C131_x86_64_violation",
    "Verif.Regs.C131_i386_violation",
    "Verif.Regs.C131_riscv_size_violation",
    "Verif.Regs.C131_riscv_range_violation",
    "Verif.Regs.C131_arm_range_violation",
    "Verif.Regs.C131_bpf_length_violation",
    "Verif.Regs.C131_r10_violation",
    "Verif.Regs.C131_xf16_violation",
    "Verif.Regs.C131_twice_violation",
    "Verif.Regs.C131_float_violation",
    "Verif.Regs.C131_dot_violation"
   ],
   "note": "Each part is proved for all backends except those named in the violations: buffers one byte too short on x86-64 and i386 and any on riscv, numbers accepted beyond the table on riscv and arm, bpf's length and its missing r10, sh's xf16, arm's names given twice, ia64's f10 to f99, and the dot in fs.base."
  },
  {
   "property": "C132",
   "status": "partial",
   "theorems": [
    "Verif.Names.C132_segment",
    "Verif.Names.C132_section_type_partial",
    "Verif.Names.C132_tag_partial",
    "Verif.Names.C132_symbol_partial",
    "Verif.Names.C132_binding_partial",
    "Verif.Names.C132_osabi_partial",
    "Verif.Names.C132_index_partial",
    "Verif.Names.C132_scn",
    "Verif.Names.C132_escape_partial",
    "Verif.Names.C132_number",
    "Verif.Names.C132_segment_distinct",
    "Verif.Names.C132_section_type_distinct",
    "Verif.Names.C132_tag_distinct_partial",
    "Verif.Names.C132_symbol_distinct",
    "Verif.Names.C132_osabi_distinct",
    "Verif.Names.C132_nobuffer",
    "Verif.Names.C132_binding_violation",
    "Verif.Names.C132_encoding_violation",
    "Verif.Names.C132_aeabi_violation",
    "Verif.Names.C132_handle_violation",
    "Verif.Names.C132_section_handle_violation",
    "Verif.Names.C132_negative_violation",
    "Verif.Names.C132_length_violation",
    "Verif.Names.C132_escape_violation",
    "Verif.Names.C132_escape_bound_violation"
   ],
   "note": "Violated: bindings are named by the hook for types (ARM, SPARC: 13), tag 31 is called ENCODING, ELFOSABI_ARM_AEABI has no name, no handle or a negative value is undefined in some functions, length 0 returns no string, the escape 0xffff is compared with the number of sections instead of the number behind it. The texts, distinctness and the bound on writes are proved for everything else."
  },
  {
   "property": "C133",
   "status": "partial",
   "theorems": [
    "Verif.Offscn.C133_answer",
    "Verif.Offscn.C133_fresh",
    "Verif.Offscn.C133_gelf",
    "Verif.Offscn.C133_refused",
    "Verif.Offscn.C133_unreadable",
    "Verif.Offscn.C133_error_violation",
    "Verif.Offscn.C133_added_violation",
    "Verif.Offscn.C133_class_violation",
    "Verif.Offscn.C133_null_violation"
   ],
   "note": "Violated: the error code is set although a section without contents is returned; headers read after a section was added are stored beyond the first block; the functions for one class do not check the class of headers already read; gelf_offscn does not accept a missing handle. The answers, the loading and the refusals are proved in full."
  },
  {
   "property": "C134",
   "status": "partial",
   "theorems": [
    "Verif.Datalist.C134_file",
    "Verif.Datalist.C134_empty_partial",
    "Verif.Datalist.C134_created_partial",
    "Verif.Datalist.C134_unreadable",
    "Verif.Datalist.C134_mismatch",
    "Verif.Datalist.C134_raw",
    "Verif.Datalist.C134_refused",
    "Verif.Datalist.C134_lost_violation",
    "Verif.Datalist.C134_phantom_violation"
   ],
   "note": "Proved for all histories on sections with contents in the file, and on unreadable ones. Partial for sections without contents (no elf_rawdata call) and for created sections (no elf_getdata before the first elf_newdata): both restrictions are necessary, C134_lost_violation and C134_phantom_violation show it. Bytes, conversion, locks and running out of memory are not modelled here."
  },
  {
   "property": "C135",
   "status": "partial",
   "theorems": [
    "Verif.Flags.C135_flags",
    "Verif.Flags.C135_result",
    "Verif.Flags.C135_refused",
    "Verif.Flags.C135_update_partial",
    "Verif.Flags.C135_again",
    "Verif.Flags.C135_again_file_partial",
    "Verif.Flags.C135_stale_violation",
    "Verif.Flags.C135_abort_violation",
    "Verif.Flags.C135_data_violation",
    "Verif.Flags.C135_result_violation"
   ],
   "note": "Flag histories proved in full for all words (elf_flagdata changes the word of the section, C135_data_violation). What an update writes: if section 0 is not marked (C135_abort_violation). Nothing left after an update: in full through a mapping, with write calls if no section was marked itself (C135_stale_violation). The result of the flag functions is ambiguous (C135_result_violation). Bytes and places written are C90 and others; failing writes and the layout step before are not modelled here."
  },
  {
   "property": "C136",
   "status": "partial",
   "theorems": [
    "Verif.Validate.C136_section",
    "Verif.Validate.C136_passes_partial",
    "Verif.Validate.C136_fails_partial",
    "Verif.Validate.C136_module",
    "Verif.Validate.C136_unknown",
    "Verif.Validate.C136_limit_violation"
   ],
   "note": "What passes lies in one section (any sections that do not wrap around). Converse and refusals for sections that are not empty and do not overlap (C40_empty_violation shows why). Modules of other types in full. The limit of a module passes although it belongs to the next module (C136_limit_violation). The module of the address is given (C38, C60); loading of symbol tables and DWARF is one outcome."
  },
  {
   "property": "C137",
   "status": "partial",
   "theorems": [
    "Verif.Size.C137_bsd_partial",
    "Verif.Size.C137_totals",
    "Verif.Size.C137_sysv_partial",
    "Verif.Size.C137_segments_partial",
    "Verif.Size.C137_unreadable",
    "Verif.Size.C137_oneline_violation",
    "Verif.Size.C137_name_violation",
    "Verif.Size.C137_negative_violation"
   ],
   "note": "Sums are exact for totals below 2^63 in the lines of files (C137_negative_violation: larger ones are shown as negative numbers in decimal) and below 2^64 in the totals. The SysV formats need a name for each loaded section (C137_name_violation: NULL goes to printf), the one line format does not check headers (C137_oneline_violation). The text of the output, options, archives and reading the file are not modelled."
  },
  {
   "property": "C138",
   "status": "partial",
   "theorems": [
    "Verif.EFlags.C138_check_partial",
    "Verif.EFlags.C138_sound_partial",
    "Verif.EFlags.C138_sparc_partial",
    "Verif.EFlags.C138_zero",
    "Verif.EFlags.C138_default_violation",
    "Verif.EFlags.C138_hal_violation",
    "Verif.EFlags.C138_model_violation",
    "Verif.EFlags.C138_name",
    "Verif.EFlags.C138_room",
    "Verif.EFlags.C138_empty_violation",
    "Verif.EFlags.C138_first_violation",
    "Verif.EFlags.C138_join_violation"
   ],
   "note": "Exact for all machines but alpha, s390, m68k and SPARC, whose defined flags are reported as invalid (violations); SPARC also accepts a memory model that is not defined. Names: exact for the backends of the tree, none of which names flags; with any hook the buffer is respected, but only the first name is visible (violation)."
  },
  {
   "property": "C14",
   "status": "partial",
   "theorems": [
    "Verif.Note.C14_ranges",
    "Verif.Note.C14_exact_partial",
    "Verif.Note.C14_progress_partial",
    "Verif.Note.C14_terminates_partial",
    "Verif.Note.C14_progress_violation"
   ],
   "note": "Ranges and header contents proved for every size below 2^63. Exactness, progress and termination of the caller's loop proved for data up to 2^32-8 bytes; beyond that the 32-bit alignment masks truncate offsets and progress is false (C14_progress_violation)."
  },
  {
   "property": "C15",
   "status": "partial",
   "theorems": [
    "Verif.Xlate.C15_roundtrip_partial",
    "Verif.Xlate.C15_chdr_partial",
    "Verif.Xlate.C15_gnuhash_partial",
    "Verif.Xlate.C15_note_partial",
    "Verif.Xlate.C15_version_partial",
    "Verif.Xlate.C15_note_violation",
    "Verif.Xlate.C15_note_inplace_violation",
    "Verif.Xlate.C15_gnuhash_inplace_violation"
   ],
   "note": "Round trip proved for all types of fixed layout, compressed sections, well-formed GNU hash tables, notes and version sections, both directions; false for malformed notes and for 64-bit GNU hash tables encoded in place (violations proved). Malformed version sections are not covered by the round trip."
  },
  {
   "property": "C16",
   "status": "partial",
   "theorems": [
    "Verif.Xlate.C16_fields_partial",
    "Verif.Xlate.C16_gnuhash_partial",
    "Verif.Xlate.C16_note_partial",
    "Verif.Xlate.C16_version_partial",
    "Verif.Xlate.C16_move32_violation",
    "Verif.Xlate.C16_move64_violation"
   ],
   "note": "Field-by-field conversion proved for all types of fixed layout and for well-formed GNU hash tables, notes and version sections; false for ELF_T_MOVE (violations proved)."
  },
  {
   "property": "C17",
   "status": "partial",
   "theorems": [
    "Verif.Xlate.C17_placement_partial",
    "Verif.Xlate.C17_record_violation",
    "Verif.Xlate.C17_chdr_violation"
   ],
   "note": "Placement independence proved for all placements of one-field types and, for records, all placements except destination inside the source behind its start, where it is false (violations proved)."
  },
  {
   "property": "C18",
   "status": "partial",
   "theorems": [
    "Verif.Xlate.C18_safe",
    "Verif.Xlate.C18_terminates_partial",
    "Verif.Xlate.C18_terminates_decode_partial",
    "Verif.Xlate.C18_loop_violation",
    "Verif.Xlate.C18_gnuhash"
   ],
   "note": "Memory safety proved for all contents and placements; termination proved in place and for conversion to file form; conversion to memory form into a separate buffer can loop for ever (violation proved), terminates when auxiliary records lie behind their record."
  },
  {
   "property": "C19",
   "status": "partial",
   "theorems": [
    "Verif.Xlate.C19_fsize_partial",
    "Verif.Xlate.C19_numbers",
    "Verif.Xlate.C19_move_violation",
    "Verif.Xlate.C19_overflow_violation"
   ],
   "note": "Proved for every type but ELF_T_MOVE (violation proved) and products that fit size_t (violation proved otherwise)."
  },
  {
   "property": "C20",
   "status": "partial",
   "theorems": [
    "Verif.Scn.C20_getscn_partial",
    "Verif.Scn.C20_count_partial",
    "Verif.Scn.C20_newscn_partial",
    "Verif.Scn.C20_nextscn_partial",
    "Verif.Scn.C20_readonly_violation",
    "Verif.Scn.C20_nomem_violation"
   ],
   "note": "Proved for every history from a new file, a read-write file, or a read-only file with at least one section, when memory is available. Missing because false: elf_newscn on a read-only descriptor without sections reads outside the block (violation theorem), and a call failing for lack of memory still adds a section (violation theorem)."
  },
  {
   "property": "C21",
   "status": "partial",
   "theorems": [
    "Verif.Layout.C21_layout_partial",
    "Verif.Layout.C21_shnum",
    "Verif.Layout.C21_nosections",
    "Verif.Layout.C21_zeroalign_violation",
    "Verif.Layout.C21_large_violation",
    "Verif.Layout.C21_align_violation"
   ],
   "note": "Layout theorem holds when every data block has a power-of-two nonzero alignment and the file stays below 4 GiB (32-bit casts in the code); three violation theorems show the property fails outside those bounds."
  },
  {
   "property": "C22",
   "status": "partial",
   "theorems": [
    "Verif.Write.C22_written_partial",
    "Verif.Write.C22_fresh_partial",
    "Verif.Write.C22_gap_violation"
   ],
   "note": "Every header and data block is written at its place with the modelled conversion and holes carry the fill byte; the gap between consecutive data-less sections is not filled (violation theorem)."
  },
  {
   "property": "C23",
   "status": "partial",
   "theorems": [
    "Verif.Data.C23_string_partial",
    "Verif.Data.C23_safe_partial",
    "Verif.Data.C23_complete_partial",
    "Verif.Data.C23_stale_size_violation",
    "Verif.Data.C23_noshdr_violation"
   ],
   "note": "Returned pointers are terminated strings of the section's data, no out-of-bounds reads when section memory agrees with its sizes; violation theorems for sizes changed ahead of the data and for headers that cannot be loaded."
  },
  {
   "property": "C24",
   "status": "partial",
   "theorems": [
    "Verif.Ar.C24_visits_all",
    "Verif.Ar.C24_visits_long_partial",
    "Verif.Ar.C24_chain_partial",
    "Verif.Ar.C24_terminates_partial",
    "Verif.Ar.C24_search_ends_partial",
    "Verif.Ar.C24_search_violation",
    "Verif.Ar.C24_scan_violation",
    "Verif.Ar.C24_nested_violation",
    "Verif.Ar.C24_nested_names_violation"
   ],
   "note": "Archives with indexes, short and long names: exactly the entries are visited, with their full names; nested archives in a mapped file lose long names (violation). Arbitrary contents: order and containment proved except for nested unmapped archives; termination under the condition that the long-name search ends; violations proved."
  },
  {
   "property": "C25",
   "status": "partial",
   "theorems": [
    "Verif.Ar.C25_index_partial",
    "Verif.Ar.C25_unterminated_violation",
    "Verif.Ar.C25_count_violation",
    "Verif.Ar.C25_room_violation",
    "Verif.Ar.C25_unmapped_violation"
   ],
   "note": "Holds for indexes with room and enough terminators; the code does not check this, four violations proved."
  },
  {
   "property": "C26",
   "status": "partial",
   "theorems": [
    "Verif.Data.C26_range",
    "Verif.Data.C26_foreign",
    "Verif.Data.C26_complete",
    "Verif.Data.C26_safe",
    "Verif.Data.C26_noehdr_violation"
   ],
   "note": "Range check, exact bytes (native order), member-wise values (foreign order, fixed records), completeness and safety for descriptors with an ELF header; violation for a descriptor without one."
  },
  {
   "property": "C27",
   "status": "partial",
   "theorems": [
    "Verif.Open.C27_sections",
    "Verif.Open.C27_segments",
    "Verif.Open.C27_getphdr",
    "Verif.Open.C27_open_safe_partial",
    "Verif.Open.C27_calls_safe",
    "Verif.Open.C27_sections_complete",
    "Verif.Open.C27_short_violation",
    "Verif.Open.C27_xnum_violation",
    "Verif.Open.C27_noehdr_violation"
   ],
   "note": "Section/program header counts never exceed the image, completeness of the section count, safety for images of at least 64 bytes; violations: mapped images shorter than the ELF header, PN_XNUM before section headers are loaded, elf_getphdrnum without an ELF header."
  },
  {
   "property": "C28",
   "status": "partial",
   "theorems": [
    "Verif.Cfi.C28_row_partial",
    "Verif.Cfi.C28_interval",
    "Verif.Cfi.C28_start_violation",
    "Verif.Cfi.C28_offset_violation"
   ],
   "note": "Row rules, end of row and errors are exact for every program of complete instructions; the start is exact without DW_CFA_restore_state. Fails after restore_state (start of the row in which the state was remembered) and for offsets of more than 61 bits. The interval always contains the address for arbitrary bytes."
  },
  {
   "property": "C29",
   "status": "partial",
   "theorems": [
    "Verif.Cfi.C29_section_partial",
    "Verif.Cfi.C29_complete_partial",
    "Verif.Cfi.C29_leb_violation",
    "Verif.Cfi.C29_block_violation"
   ],
   "note": "Holds for programs of complete instructions, and for arbitrary bytes with respect to the section if two more bytes follow. Fails: operands of advance_loc1 and LEB128 operands are read behind the end; blocks outside the section are accepted."
  },
  {
   "property": "C30",
   "status": "partial",
   "theorems": [
    "Verif.Enc.C30_direct",
    "Verif.Enc.C30_indirect",
    "Verif.Enc.C30_error",
    "Verif.Enc.C30_safe_partial",
    "Verif.Enc.C30_leb_violation",
    "Verif.Enc.C30_aligned_violation",
    "Verif.Enc.C30_funcrel_violation"
   ],
   "note": "Direct and indirect pointers, errors and bounds are exact except: LEB128 values at the end of the section are read outside of it, aligned ULEB128 uses an inverted size scan, funcrel adds no base."
  },
  {
   "property": "C31",
   "status": "partial",
   "theorems": [
    "Verif.NextCfi.C31_bounds_partial",
    "Verif.NextCfi.C31_terminates",
    "Verif.NextCfi.C31_entries",
    "Verif.NextCfi.C31_unsized_violation",
    "Verif.NextCfi.C31_offset_violation"
   ],
   "note": "Every entry without operands in an unsized augmentation is safe and in bounds; iteration always terminates; well-formed sections are enumerated exactly. Fails for augmentations with L, R, P but no z (reads behind the section, instruction range reversed) and for offsets from 2^64-4."
  },
  {
   "property": "C32",
   "status": "partial",
   "theorems": [
    "Verif.Aranges.C32_lookup_partial",
    "Verif.Aranges.C32_empty_violation",
    "Verif.Aranges.C32_lookup_safe",
    "Verif.Aranges.C32_table_safe",
    "Verif.Aranges.C32_table",
    "Verif.Aranges.C32_section_partial"
   ],
   "note": "Exact for non-overlapping, non-empty ranges, from the section bytes to the answer; reading and lookup are safe for arbitrary contents. An empty range is returned for its own address and can hide the containing one."
  },
  {
   "property": "C33",
   "status": "proved",
   "theorems": [
    "Verif.Line.C33_lookup",
    "Verif.Line.C33_table"
   ],
   "note": "dwarf_getsrc_die on every table in address order whose last row ends a sequence; C33_table: dwarf_getsrclines makes only such tables."
  },
  {
   "property": "C34",
   "status": "partial",
   "theorems": [
    "Verif.Line.C34_lines_partial",
    "Verif.Line.C34_safe_partial",
    "Verif.Line.C34_advance_violation",
    "Verif.Line.C34_column_violation",
    "Verif.Line.C34_length_violation",
    "Verif.Line.C34_last_violation",
    "Verif.Line.C34_header_violation",
    "Verif.Line.C34_dirs_violation"
   ],
   "note": "Units of version 2-4 from the unit header on, directories, files and the whole program. Missing: operands that do not fit 32 bits, extended operations with multi-byte length, discriminators with opcode_base < 5, non-standard lengths of standard opcodes (all rejected or misread by the code; see the violations). Version 5 is C95. Violations found: advances and columns taken modulo 2^32, length of extended operations read as one byte, last row forced to end_sequence, header and directory table read one byte past the section."
  },
  {
   "property": "C35",
   "status": "partial",
   "theorems": [
    "Verif.Form.C35_size_partial",
    "Verif.Form.C35_inside",
    "Verif.Form.C35_safe_partial",
    "Verif.Form.C35_accepted_partial",
    "Verif.Form.C35_end_violation",
    "Verif.Form.C35_indirect_violation",
    "Verif.Form.C35_block4_violation",
    "Verif.Form.C35_block_violation",
    "Verif.Form.C35_cut_violation"
   ],
   "note": "sizes are exact for well-formed values below 4 GiB and never lead out of the unit; safe except LEB128 values starting at the end of the last unit and indirect forms; block4 and block lengths wrap, cut-off numbers are accepted (violations)"
  },
  {
   "property": "C36",
   "status": "partial",
   "theorems": [
    "Verif.Alloc.C36_objects_partial",
    "Verif.Alloc.C36_overflow_violation",
    "Verif.Alloc.C36_padding_violation"
   ],
   "note": "Proved when the sizes do not overflow; two overflow violations are proved"
  },
  {
   "property": "C37",
   "status": "partial",
   "theorems": [
    "Verif.Fde.C37_table_partial",
    "Verif.Fde.C37_table_safe_partial",
    "Verif.Fde.C37_covers",
    "Verif.Fde.C37_lookup_partial",
    "Verif.Fde.C37_lookup_table_partial",
    "Verif.Fde.C37_indirect_violation",
    "Verif.Fde.C37_aligned_violation",
    "Verif.Fde.C37_pcrel_violation",
    "Verif.Fde.C37_order_violation",
    "Verif.Fde.C37_short_violation",
    "Verif.Fde.C37_header_partial"
   ],
   "note": "Table search and lookup after any history for well-formed sections; violations for indirect, aligned, pc-relative and other-endian two-byte table encodings and for short FDEs"
  },
  {
   "property": "C38",
   "status": "partial",
   "theorems": [
    "Verif.Segment.C38_segments_partial",
    "Verif.Segment.C38_coalesce_violation",
    "Verif.Segment.C38_begin_violation",
    "Verif.Segment.C38_overlap_violation",
    "Verif.Segment.C38_module_violation",
    "Verif.Segment.C38_ndx_violation"
   ],
   "note": "segments without identification, not overlapping, no module lookup in between; coalescing, overlap, module lookups and number overflow shown to break the property"
  },
  {
   "property": "C39",
   "status": "partial",
   "theorems": [
    "Verif.Expr.C39_eval_partial",
    "Verif.Expr.C39_safe_partial",
    "Verif.Expr.C39_example",
    "Verif.Expr.C39_endless",
    "Verif.Expr.C39_deref_size_violation",
    "Verif.Expr.C39_cfa_violation",
    "Verif.Expr.C39_shift_violation",
    "Verif.Expr.C39_div_violation",
    "Verif.Expr.C39_end_violation"
   ],
   "note": "exact characterisation of successful evaluations and of undefined behaviour; undefined shifts, overflows, deref_size of 4 to 7 bytes and in CFA expressions, and refused branches to the end shown as violations"
  },
  {
   "property": "C40",
   "status": "partial",
   "theorems": [
    "Verif.Reloc.C40_inside",
    "Verif.Reloc.C40_finds_partial",
    "Verif.Reloc.C40_empty_violation"
   ],
   "note": "ET_REL: result always inside (C40_inside); full decision table for non-empty, disjoint, non-wrapping allocated sections in any order; fails with an empty section between adjacent ones (C40_empty_violation)"
  },
  {
   "property": "C41",
   "status": "partial",
   "theorems": [
    "Verif.Addrsym.C41_sound",
    "Verif.Addrsym.C41_global",
    "Verif.Addrsym.C41_found",
    "Verif.Addrsym.C41_label",
    "Verif.Addrsym.C41_label_found",
    "Verif.Addrsym.C41_choice_partial",
    "Verif.Addrsym.C41_order_violation"
   ],
   "note": "all tables, any section predicate: sound, complete for sized symbols and labels, exact choice if a closest symbol is also the strongest; choice between a closer weak and an enclosing global symbol depends on order (C41_order_violation)"
  },
  {
   "property": "C42",
   "status": "proved",
   "theorems": [
    "Verif.Report.C42_round",
    "Verif.Report.C42_unique",
    "Verif.Report.C42_report",
    "Verif.Report.C42_end"
   ],
   "note": "any history, any reports, both with and without callback; report with failing allocation and an objecting callback are covered by C42_unique and C42_end"
  },
  {
   "property": "C43",
   "status": "partial",
   "theorems": [
    "Verif.Compress.C43_refuse",
    "Verif.Compress.C43_unchanged",
    "Verif.Compress.C43_fields",
    "Verif.Compress.C43_violation"
   ],
   "note": "Proved what is refused, that refusals change nothing and what a success sets; compressing a compressed section is not refused (violation): line 399 compares the flag with 1. zlib is a parameter."
  },
  {
   "property": "C44",
   "status": "partial",
   "theorems": [
    "Verif.Asm.C44_size_partial",
    "Verif.Asm.C44_violation"
   ],
   "note": "The number is never stored: C44_violation proves for every number and section with contents that uninitialised bytes are appended. What holds: exactly n bytes are appended and earlier contents stay."
  },
  {
   "property": "C45",
   "status": "partial",
   "theorems": [
    "Verif.Asm.C45_align_partial",
    "Verif.Asm.C45_refuse",
    "Verif.Asm.C45_history",
    "Verif.Asm.C45_zero_violation",
    "Verif.Asm.C45_pattern_violation",
    "Verif.Asm.C45_empty_violation"
   ],
   "note": "Alignment to powers of two is proved, also for arbitrary histories of calls and allocation failures. Alignment 0 overflows the heap, empty patterns divide by zero, patterns shared with a subsection are used after free."
  },
  {
   "property": "C46",
   "status": "partial",
   "theorems": [
    "Verif.Units.C46_units_partial",
    "Verif.Units.C46_progress",
    "Verif.Units.C46_safe_partial",
    "Verif.Units.C46_unknown",
    "Verif.Units.C46_short_violation",
    "Verif.Units.C46_wrap_violation",
    "Verif.Units.C46_types_violation",
    "Verif.Units.C46_header_only_violation"
   ],
   "note": "exact iteration of well-formed sections and termination for all contents; units of unknown version or type are reported with extent, version and type only; safety needs 15 (32) bytes before the end of the section, otherwise out-of-bounds reads (violations)"
  },
  {
   "property": "C47",
   "status": "partial",
   "theorems": [
    "Verif.Lists.C47_exact",
    "Verif.Lists.C47_direct",
    "Verif.Lists.C47_none",
    "Verif.Lists.C47_safe_partial",
    "Verif.Lists.C47_indexed_partial",
    "Verif.Lists.C47_wrap_violation",
    "Verif.Lists.C47_short_violation",
    "Verif.Lists.C47_addrx_violation"
   ],
   "note": "Exactness is proved for all well-formed lists in both formats (by offset or index), safety and progress for all section contents; lists given by an index with 8-byte offsets or in sections shorter than 4 bytes are read out of bounds, address indices wrap."
  },
  {
   "property": "C48",
   "status": "partial",
   "theorems": [
    "Verif.Abbrev.C48_decode_partial",
    "Verif.Abbrev.C48_safe",
    "Verif.Abbrev.C48_const_violation"
   ],
   "note": "safety, termination and bounds for all contents; exact decoding of declarations whose implicit constants have at most nine bytes (ten-byte constants are misread: violation)"
  },
  {
   "property": "C49",
   "status": "partial",
   "theorems": [
    "Verif.Die.C49_sibling_partial",
    "Verif.Die.C49_children_partial",
    "Verif.Die.C49_safe_partial",
    "Verif.Die.C49_end_violation",
    "Verif.Die.C49_sibling_end_violation",
    "Verif.Die.C49_padded_null_violation"
   ],
   "note": "exact for all well-formed trees in sections below 4 GiB; violations for missing values at the end of the section, a sibling attribute at the end of the unit, and padded null entries"
  },
  {
   "property": "C50",
   "status": "partial",
   "theorems": [
    "Verif.Gelf.C50_get_partial",
    "Verif.Gelf.C50_update_partial",
    "Verif.Gelf.C50_update_get_partial",
    "Verif.Gelf.C50_reject",
    "Verif.Gelf.C50_auxv_partial",
    "Verif.Gelf.C50_phdr_partial",
    "Verif.Gelf.C50_ver_partial",
    "Verif.Gelf.C50_symshndx_partial",
    "Verif.Gelf.C50_huge_violation",
    "Verif.Gelf.C50_auxv_violation",
    "Verif.Gelf.C50_phdr_violation",
    "Verif.Gelf.C50_move_violation",
    "Verif.Gelf.C50_ver_violation"
   ],
   "note": "Symbols, relocations, dynamic entries, syminfo, versym, lib, index words: get/update succeed exactly for entries inside the data (and representable records), round trip and leave other entries alone, for data of at most 2^31 entries. auxv, program headers, version records: partial theorems plus violations (auxv index -1 reads before the buffer, gelf_update_phdr stores through negative indices, version records stored unaligned cannot be read back, move functions always assert, data of more than 2^31 entries)."
  },
  {
   "property": "C51",
   "status": "partial",
   "theorems": [
    "Verif.Xlate.C51_inplace",
    "Verif.Xlate.C51_disjoint_partial",
    "Verif.Xlate.C51_wrap_violation"
   ],
   "note": "In place: proved for all contents. Separate buffers: proved when sizes do not overflow 32 bits; false otherwise (violation proved)."
  },
  {
   "property": "C52",
   "status": "partial",
   "theorems": [
    "Verif.Open.C52_load_partial",
    "Verif.Open.C52_append_violation"
   ],
   "note": "Holds while all sections are in the first block; fails after elf_newscn (violation)."
  },
  {
   "property": "C53",
   "status": "partial",
   "theorems": [
    "Verif.Open.C53_strndx_partial",
    "Verif.Open.C53_member_violation"
   ],
   "note": "Holds for images at file offset 0 or mapped native images; fails for unmapped archive members (violation)."
  },
  {
   "property": "C54",
   "status": "partial",
   "theorems": [
    "Verif.Ar.C54_rand_partial",
    "Verif.Ar.C54_rand_violation"
   ],
   "note": "Success path proved; the failing path leaves the lock held (violation)."
  },
  {
   "property": "C55",
   "status": "proved",
   "theorems": [
    "Verif.Ar.C55_long_name"
   ],
   "note": ""
  },
  {
   "property": "C56",
   "status": "partial",
   "theorems": [
    "Verif.Abbrev.C56_history_partial",
    "Verif.Abbrev.C56_table",
    "Verif.Abbrev.C56_zero_violation",
    "Verif.Abbrev.C56_getabbrev_violation"
   ],
   "note": "history independence for all contents and codes other than 1, exact meaning for well-formed tables after any history; codes that are multiples of 2^32 collide with 1, and dwarf_getabbrev outside the table changes later lookups (violations)"
  },
  {
   "property": "C57",
   "status": "partial",
   "theorems": [
    "Verif.Die.C57_attributes_partial",
    "Verif.Die.C57_safe_partial",
    "Verif.Die.C57_invalid_violation"
   ],
   "note": "exact for all DIEs in sections below 4 GiB and names other than 0xffffe444, for which the answer is wrong (violation)"
  },
  {
   "property": "C58",
   "status": "partial",
   "theorems": [
    "Verif.Abbrev.C58_attributes_partial",
    "Verif.Abbrev.C58_attributes_safe",
    "Verif.Abbrev.C58_count_partial",
    "Verif.Abbrev.C58_count_violation",
    "Verif.Abbrev.C58_count_oob_violation"
   ],
   "note": "indexed access is exact and safe; the count is exact without implicit constants, wrong and out of bounds with them (violations)"
  },
  {
   "property": "C59",
   "status": "partial",
   "theorems": [
    "Verif.Units.C59_offdie",
    "Verif.Units.C59_version_violation"
   ],
   "note": "exact for sections of known versions after any history; with unknown versions the result depends on the history (violation)"
  },
  {
   "property": "C60",
   "status": "partial",
   "theorems": [
    "Verif.Segment.C60_modules_partial",
    "Verif.Segment.C60_segments_partial",
    "Verif.Segment.C60_adjacent_violation",
    "Verif.Segment.C60_end_violation",
    "Verif.Segment.C60_cross_violation"
   ],
   "note": "sessions without segments: modules not starting where an earlier one ends; sessions with segments: aligned disjoint modules that fit the segment boundaries; the remaining cases are shown to break the property"
  },
  {
   "property": "C61",
   "status": "partial",
   "theorems": [
    "Verif.Asm.C61_one_block_partial",
    "Verif.Asm.C61_violation"
   ],
   "note": "Holds for sections in one memory block; for several blocks C61_violation proves that the last block always comes first."
  },
  {
   "property": "C62",
   "status": "partial",
   "theorems": [
    "Verif.Asm.C62_subsections",
    "Verif.Asm.C62_layout_partial",
    "Verif.Asm.C62_large_violation"
   ],
   "note": "Order and uniqueness hold; the layout holds below 4 GiB, C62_large_violation shows that offsets are truncated to 32 bits beyond."
  },
  {
   "property": "C63",
   "status": "proved",
   "theorems": [
    "Verif.Asm.C63_symtab"
   ],
   "note": ""
  },
  {
   "property": "C64",
   "status": "partial",
   "theorems": [
    "Verif.Lists.C64_exact",
    "Verif.Lists.C64_addr_partial",
    "Verif.Lists.C64_safe",
    "Verif.Lists.C64_loop_violation"
   ],
   "note": "Exactness is proved for all well-formed lists in three formats; dwarf_getlocations is safe on all contents; dwarf_getlocation_addr loops forever on an expression length that is negative as ptrdiff_t."
  },
  {
   "property": "C65",
   "status": "partial",
   "theorems": [
    "Verif.Compress.C65_roundtrip_partial",
    "Verif.Compress.C65_smaller",
    "Verif.Compress.C65_decompress_safe",
    "Verif.Compress.C65_cache",
    "Verif.Compress.C65_large_violation",
    "Verif.Compress.C65_align_violation"
   ],
   "note": "Round trip below 4 GiB with power-of-two alignment; from 4 GiB on the 32-bit counters of z_stream lose data (violation); other alignments can never be decompressed (violation); 32-bit files get the alignment of the data instead of sh_addralign."
  },
  {
   "property": "C66",
   "status": "partial",
   "theorems": [
    "Verif.Compress.C66_refuse",
    "Verif.Compress.C66_roundtrip_partial",
    "Verif.Compress.C66_expand_violation"
   ],
   "note": "Round trip for streams at most 11 bytes longer than the contents; longer streams are refused by the decompression (violation)."
  },
  {
   "property": "C67",
   "status": "partial",
   "theorems": [
    "Verif.Layout.C67_entsize_partial",
    "Verif.Layout.C67_large_violation",
    "Verif.Layout.C67_compressed_violation"
   ],
   "note": "Exact success condition, entry sizes and section sizes for files below 4 GiB without blocks of alignment zero; the 32-bit variables of the code break the claim for larger entry sizes and uncompressed sizes (violations)."
  },
  {
   "property": "C68",
   "status": "proved",
   "theorems": [
    "Verif.Sys.C68_pwrite",
    "Verif.Sys.C68_pwrite_complete",
    "Verif.Sys.C68_pwrite_progress",
    "Verif.Sys.C68_write",
    "Verif.Sys.C68_pread",
    "Verif.Sys.C68_pread_complete"
   ],
   "note": "All schedules; completion for every schedule without errors in which calls transfer something."
  },
  {
   "property": "C69",
   "status": "partial",
   "theorems": [
    "Verif.Strings.C69_mapped",
    "Verif.Strings.C69_read_partial",
    "Verif.Strings.C69_one_read_partial",
    "Verif.Strings.C69_offset_violation",
    "Verif.Strings.C69_drift_violation",
    "Verif.Strings.C69_overread_violation",
    "Verif.Strings.C69_assert_violation",
    "Verif.Strings.C69_wide_violation"
   ],
   "note": "One-byte characters of a mapped range (the normal case) and a single read: proved for all contents, with locations. Several reads: texts proved when every read has at least the minimum length and an unprintable byte; otherwise false, and locations are wrong (violations proved). Two- and four-byte characters are never found (violation proved for all contents)."
  },
  {
   "property": "C70",
   "status": "proved",
   "theorems": [
    "Verif.Arlib.C70_index"
   ],
   "note": "Full claim for the stated range. Which symbols a member defines is a parameter of the model."
  },
  {
   "property": "C71",
   "status": "partial",
   "theorems": [
    "Verif.Arlib.C71_delete_partial",
    "Verif.Arlib.C71_delete_all",
    "Verif.Arlib.C71_long_first_violation",
    "Verif.Arlib.C71_long_header_violation"
   ],
   "note": "Proved for archives whose members have short names and, without names on the command line, for all archives. For archives with long names the claim is false: the header is read from the wrong place (two violations)."
  },
  {
   "property": "C72",
   "status": "partial",
   "theorems": [
    "Verif.Arlib.C72_insert_partial",
    "Verif.Arlib.C72_long_first_violation",
    "Verif.Arlib.C72_long_header_violation"
   ],
   "note": "Proved for archives whose existing members have short names and files with names of any length, new size below 4 GiB, distinct file names for r. For archives with long names the claim is false (violations)."
  },
  {
   "property": "C73",
   "status": "partial",
   "theorems": [
    "Verif.Arlib.C73_large_partial",
    "Verif.Arlib.C73_wrap_violation"
   ],
   "note": "Rejected when a member begins at 4 GiB or later without the index; false when only adding the size of the index exceeds 32 bits (violation)."
  },
  {
   "property": "C74",
   "status": "partial",
   "theorems": [
    "Verif.Attrval.C74_unsigned_partial",
    "Verif.Attrval.C74_sdata",
    "Verif.Attrval.C74_implicit",
    "Verif.Attrval.C74_pointer",
    "Verif.Attrval.C74_form",
    "Verif.Attrval.C74_signed",
    "Verif.Attrval.C74_signed_implicit",
    "Verif.Attrval.C74_safe",
    "Verif.Attrval.C74_end_violation",
    "Verif.Attrval.C74_indirect_violation"
   ],
   "note": "Exact for every form, attribute and version, in both byte orders; signed LEB128 up to nine bytes. Missing because the code violates it: addrx1 to addrx4 at the very end of a unit are rejected, DW_FORM_indirect is never resolved. Not modelled: range offsets of GNU split units."
  },
  {
   "property": "C75",
   "status": "partial",
   "theorems": [
    "Verif.Attrval.C75_direct",
    "Verif.Attrval.C75_index_partial",
    "Verif.Attrval.C75_outside_partial",
    "Verif.Attrval.C75_form",
    "Verif.Attrval.C75_safe",
    "Verif.Attrval.C75_wrap_violation",
    "Verif.Attrval.C74_end_violation"
   ],
   "note": "Direct addresses exact; indexes exact for tables below 2^62 bytes; outside indexes are errors unless index * size wraps modulo 2^64, which the code accepts (C75_wrap_violation); an index of fixed size at the end of the unit is rejected (C74_end_violation)."
  },
  {
   "property": "C76",
   "status": "partial",
   "theorems": [
    "Verif.Attrval.C76_block",
    "Verif.Attrval.C76_block_safe",
    "Verif.Attrval.C76_block_form",
    "Verif.Attrval.C76_flag_partial",
    "Verif.Attrval.C76_flag_violation"
   ],
   "note": "Blocks: exact and safe for all inputs. Flags: exact if the byte exists; the code does not check that it does, which is shown by a unit for which dwarf_attr succeeds."
  },
  {
   "property": "C77",
   "status": "partial",
   "theorems": [
    "Verif.Attrval.C77_strp",
    "Verif.Attrval.C77_string",
    "Verif.Attrval.C77_strx_partial",
    "Verif.Attrval.C77_strx_outside",
    "Verif.Attrval.C77_safe",
    "Verif.Attrval.C77_terminated_partial",
    "Verif.Attrval.C77_unterminated_violation",
    "Verif.Attrval.C77_end_violation",
    "Verif.Attrval.C77_last_violation"
   ],
   "note": "Places exact for all forms. Missing because the code violates it: .debug_str is not checked to end with a null byte, an entry of the offsets table equal to the size of .debug_str is accepted, strx1 to strx4 at the end of a unit are rejected."
  },
  {
   "property": "C78",
   "status": "proved",
   "theorems": [
    "Verif.Scopes.C78_getscopes_die",
    "Verif.Scopes.C78_unique",
    "Verif.Scopes.C78_bytes"
   ],
   "note": "Proved for every tree that the functions for children and siblings show; C78_bytes connects this to the bytes of a unit by way of C49 (units without imports, sections below 4 GiB). C78_unique: the chain is the only one."
  },
  {
   "property": "C79",
   "status": "partial",
   "theorems": [
    "Verif.Scopes.C79_getscopes_partial",
    "Verif.Scopes.C79_innermost",
    "Verif.Scopes.C79_origin_violation",
    "Verif.Scopes.C79_namespace_violation"
   ],
   "note": "Exact result in all cases where no range lookup fails; C79_innermost characterises the chain. Missing because the code violates it: scopes inside DIEs without ranges (namespaces, classes) are not found, and an inlined subroutine that is defined in another unit makes the result 0."
  },
  {
   "property": "C80",
   "status": "partial",
   "theorems": [
    "Verif.Pc.C80_lowpc",
    "Verif.Pc.C80_highpc",
    "Verif.Pc.C80_highpc_offset",
    "Verif.Pc.C80_highpc_missing",
    "Verif.Pc.C80_entrypc_partial",
    "Verif.Pc.C80_entrypc_violation",
    "Verif.Pc.C80_highpc_violation",
    "Verif.Pc.C80_haspc_list",
    "Verif.Pc.C80_haspc_safe_partial",
    "Verif.Pc.C80_haspc_single",
    "Verif.Pc.C80_haspc_none"
   ],
   "note": "C80_lowpc, C80_highpc(_offset, _missing), C80_haspc_list/single/none hold for all encodings. Violations: a constant DW_AT_entry_pc is always an error; an address index outside the table in DW_AT_high_pc is taken for an offset. Safety of dwarf_haspc needs a list inside its section (as C47)."
  },
  {
   "property": "C81",
   "status": "partial",
   "theorems": [
    "Verif.Types.C81_lower",
    "Verif.Types.C81_size_partial",
    "Verif.Types.C81_enumeration_violation",
    "Verif.Types.C81_overflow_violation"
   ],
   "note": "Proved for types whose bounds and products fit; violations: enumeration index types are counted wrongly and products wrap at 2^64."
  },
  {
   "property": "C82",
   "status": "proved",
   "theorems": [
    "Verif.Types.C82_inherited",
    "Verif.Types.C82_lacks",
    "Verif.Types.C82_sound",
    "Verif.Types.C82_peel",
    "Verif.Types.C82_peel_void",
    "Verif.Types.C82_peel_cycle"
   ],
   "note": "Chains of at most 16 links and 63 modifiers, the limits of the code, stated in the quantifier; C82_peel_cycle covers circular types."
  },
  {
   "property": "C83",
   "status": "partial",
   "theorems": [
    "Verif.Ref.C83_signature_partial",
    "Verif.Ref.C83_signature_missing",
    "Verif.Ref.C83_unit",
    "Verif.Ref.C83_unit_outside",
    "Verif.Ref.C83_ref_addr_partial",
    "Verif.Ref.C83_ref_alt_partial",
    "Verif.Ref.C83_sup_violation",
    "Verif.Ref.C83_types_violation",
    "Verif.Ref.C83_sig8_violation",
    "Verif.Ref.C83_history_violation",
    "Verif.Ref.C83_zero_violation",
    "Verif.Ref.C83_safe_partial"
   ],
   "note": "Unit references and signatures after all histories are proved. Violations: ref_sup4/8 lead into the file itself; ref_addr and GNU_ref_alt in .debug_types are errors; ref_sig8 is read without bounds check; ids of units that are no type units match; signature 0 is taken for 1."
  },
  {
   "property": "C84",
   "status": "partial",
   "theorems": [
    "Verif.Macro.C84_call_partial",
    "Verif.Macro.C84_session_partial",
    "Verif.Macro.C84_param1",
    "Verif.Macro.C84_param2_number",
    "Verif.Macro.C84_param2_string",
    "Verif.Macro.C84_param2_strp",
    "Verif.Macro.C84_line_header",
    "Verif.Macro.C84_missing_violation",
    "Verif.Macro.C84_opcodes_violation",
    "Verif.Macro.C84_header_violation",
    "Verif.Macro.C84_opzero_violation",
    "Verif.Macro.C84_cut_violation",
    "Verif.Macro.C84_end_violation",
    "Verif.Macro.C84_resume_violation",
    "Verif.Macro.C84_line_violation",
    "Verif.Macro.C84_param2_violation",
    "Verif.Macro.C84_null_violation",
    "Verif.Macro.C84_safe_partial",
    "Verif.Macro.C84_forms",
    "Verif.Macro.C84_line_macinfo",
    "Verif.Macro.C84_line_none",
    "Verif.Macro.C84_outside"
   ],
   "note": "Delivery, resumption and parameters for well-formed units with headers below 64 KiB that do not define all 255 opcodes; safety for .debug_macinfo sections that end with two zero bytes. The violations are inputs on which the code fails an assertion, reads or writes outside its buffers, or depends on earlier calls."
  },
  {
   "property": "C85",
   "status": "partial",
   "theorems": [
    "Verif.Handle.C85_safe_partial",
    "Verif.Handle.C85_live_partial",
    "Verif.Handle.C85_end_partial",
    "Verif.Handle.C85_released_partial",
    "Verif.Handle.C85_new_partial",
    "Verif.Handle.C85_again_partial",
    "Verif.Handle.C85_image_partial",
    "Verif.Handle.C85_leak_partial",
    "Verif.Handle.C85_clone_member_violation",
    "Verif.Handle.C85_clone_image_violation",
    "Verif.Handle.C85_member_leak_violation",
    "Verif.Handle.C85_end_deadlock_violation",
    "Verif.Handle.C85_rawfile_deadlock_violation",
    "Verif.Handle.C85_cntl_deadlock_violation",
    "Verif.Handle.C85_fdread_violation",
    "Verif.Handle.C85_memory_violation",
    "Verif.Handle.C85_other_file"
   ],
   "note": "Proved for all histories without elf_clone, for the library compiled without locks. Violations: a clone of a member cannot be closed (null pointer); a clone of a mapped file keeps a pointer to memory that is unmapped with the original; elf_rawfile on a member of an unmapped archive leaks; with locks elf_end, elf_rawfile and elf_cntl can wait for ever; after ELF_C_FDREAD and for elf_memory no member can be opened with ELF_C_READ. Headers, sections and data of a descriptor are left out."
  },
  {
   "property": "C86",
   "status": "partial",
   "theorems": [
    "Verif.Intern.C86_decode_partial",
    "Verif.Intern.C86_intern_partial",
    "Verif.Intern.C86_unknown",
    "Verif.Intern.C86_nocfi",
    "Verif.Intern.C86_short",
    "Verif.Intern.C86_short_address_partial",
    "Verif.Intern.C86_short_block_partial",
    "Verif.Intern.C86_short_block1_partial",
    "Verif.Intern.C86_short_second",
    "Verif.Intern.C86_history_partial",
    "Verif.Intern.C86_location_partial",
    "Verif.Intern.C86_empty",
    "Verif.Intern.C86_member",
    "Verif.Intern.C86_no_location",
    "Verif.Intern.C86_truncated_violation",
    "Verif.Intern.C86_unterminated_violation",
    "Verif.Intern.C86_sleb_violation",
    "Verif.Intern.C86_address_violation",
    "Verif.Intern.C86_call_violation",
    "Verif.Intern.C86_implicit_pointer_violation",
    "Verif.Intern.C86_implicit_value_violation",
    "Verif.Intern.C86_cache_violation",
    "Verif.Intern.C86_assert_violation",
    "Verif.Intern.C86_member_list_violation",
    "Verif.Intern.C86_member_const_violation",
    "Verif.Intern.C86_order",
    "Verif.Intern.C86_safe_partial"
   ],
   "note": "C86_decode_partial, C86_intern_partial, C86_location_partial: blocks that are complete expressions give their operations. C86_history_partial: over all histories of calls. C86_unknown, C86_short..., C86_short_second: what is refused. C86_order: offsets increase. C86_safe_partial: no expression leads outside the section. _partial because operands are read beyond the end of the block or accepted without an end (C86_truncated_violation, C86_unterminated_violation, C86_address_violation, C86_implicit_value_violation), signed LEB128 numbers below -2^62, references of DW_OP_call2/call4 from half their range on and negative offsets of implicit pointers come out wrong (C86_sleb_violation, C86_call_violation, C86_implicit_pointer_violation), the cache answers requests for other blocks at the same address (C86_cache_violation, C86_assert_violation), and some constant member offsets are mistaken (C86_member_list_violation, C86_member_const_violation)."
  },
  {
   "property": "C87",
   "status": "partial",
   "theorems": [
    "Verif.Unwind.C87_aarch64",
    "Verif.Unwind.C87_aarch64_ends_partial",
    "Verif.Unwind.C87_null_read_violation",
    "Verif.Unwind.C87_null_frames_violation",
    "Verif.Unwind.C87_endless_violation",
    "Verif.Unwind.C87_unreadable_violation",
    "Verif.Unwind.C87_uninitialised_violation",
    "Verif.Unwind.C87_aarch64_endless_violation",
    "Verif.Unwind.C87_two_numbers_violation",
    "Verif.Unwind.C87_frame_partial",
    "Verif.Unwind.C87_walk",
    "Verif.Unwind.C87_stop",
    "Verif.Unwind.C87_source",
    "Verif.Unwind.C87_activation",
    "Verif.Unwind.C87_initial_partial",
    "Verif.Unwind.C87_getframes_partial",
    "Verif.Unwind.C87_x86_64",
    "Verif.Unwind.C87_x86_64_ends",
    "Verif.Unwind.C87_ppc64",
    "Verif.Unwind.C87_ppc64_ends",
    "Verif.Unwind.C87_i386",
    "Verif.Unwind.C87_i386_ends",
    "Verif.Unwind.C87_ppc64_registers"
   ],
   "note": "Proved: the order of frames, the results and the detaching; the registers and the PC of a caller for every row that no expression of which gets stuck in an operation C leaves undefined; where the call frame information comes from; the initial frame; what the four backends find, and that their walks end. Missing: registers with several DWARF numbers, return address registers under another number. Violated: memory_read NULL is called or more frames are shown; unreadable return addresses count as the outermost frame; cyclic stacks never end; uninitialised PC; two numbers of LR on ppc64."
  },
  {
   "property": "C88",
   "status": "partial",
   "theorems": [
    "Verif.Relocate.C88_again_partial",
    "Verif.Relocate.C88_x86_64",
    "Verif.Relocate.C88_i386",
    "Verif.Relocate.C88_aarch64",
    "Verif.Relocate.C88_ppc64",
    "Verif.Relocate.C88_riscv_partial",
    "Verif.Relocate.C88_common_violation",
    "Verif.Relocate.C88_strings_violation",
    "Verif.Relocate.C88_overflow_violation",
    "Verif.Relocate.C88_index_violation",
    "Verif.Relocate.C88_riscv_violation",
    "Verif.Relocate.C88_safe_partial",
    "Verif.Relocate.C88_complete_partial",
    "Verif.Relocate.C88_section_partial",
    "Verif.Relocate.C88_untouched",
    "Verif.Relocate.C88_failure_partial",
    "Verif.Relocate.C88_machine",
    "Verif.Relocate.C88_headers",
    "Verif.Relocate.C88_unique",
    "Verif.Relocate.C88_fields"
   ],
   "note": "Unresolved common symbols get the value of whatever symbol was looked at last, string tables without terminator are read beyond, signed fields can overflow, extended section indices 0xfff1 and 0xfff2 are mistaken for reserved ones, and four RISC-V types are silently left: each is proved as a violation. Everything else holds for all inputs."
  },
  {
   "property": "C89",
   "status": "partial",
   "theorems": [
    "Verif.Pubnames.C89_all_partial",
    "Verif.Pubnames.C89_resume_partial",
    "Verif.Pubnames.C89_single_violation",
    "Verif.Pubnames.C89_later_violation",
    "Verif.Pubnames.C89_sound",
    "Verif.Pubnames.C89_safe_partial",
    "Verif.Pubnames.C89_ends",
    "Verif.Pubnames.C89_read_violation",
    "Verif.Pubnames.C89_unit5_violation",
    "Verif.Pubnames.C89_length_violation"
   ],
   "note": "Proved: all names of well-formed sections with units up to version 4 are reported in order (C89_all_partial), continuing in the first of several sets (C89_resume_partial), soundness for arbitrary sections and offsets (C89_sound), safety and termination from the start (C89_safe_partial). The code violates the rest: continuing with one set or in a later set aborts, units of version 5 get the wrong DIE, four bytes are read where three are checked, and a bad length ends the list silently."
  },
  {
   "property": "C90",
   "status": "partial",
   "theorems": [
    "Verif.Mmap.C90_written_partial",
    "Verif.Mmap.C90_same_partial",
    "Verif.Mmap.C90_phdr_violation",
    "Verif.Mmap.C90_phoff_violation",
    "Verif.Mmap.C90_table_violation",
    "Verif.Mmap.C90_later_violation",
    "Verif.Mmap.C90_covered",
    "Verif.Mmap.C90_mapping_violation"
   ],
   "note": "Proved for layouts with the section header table behind the sections and with mapped contents behind the new headers, all combinations of dirty flags; byte for byte equal to updatefile when everything is written. Violations: contents under a grown program header table are lost, a mapped program header table moved upwards is filled over, a table in front of the sections, later blocks in the mapping, growth under ELF_C_WRITE_MMAP. Not modelled: byte order conversion, archive members."
  },
  {
   "property": "C91",
   "status": "partial",
   "theorems": [
    "Verif.Debuglink.C91_link",
    "Verif.Debuglink.C91_link_safe",
    "Verif.Debuglink.C91_altlink",
    "Verif.Debuglink.C91_compressed_partial",
    "Verif.Debuglink.C91_compressed_violation",
    "Verif.Debuglink.C91_note_partial",
    "Verif.Debuglink.C91_id_partial"
   ],
   "note": "Exact for links, alternate links and build IDs (note data up to 2^32-8 bytes, the limit of C14); sizes of old compressed sections from 2^63 on come out negative (C91_compressed_violation)."
  },
  {
   "property": "C92",
   "status": "partial",
   "theorems": [
    "Verif.Debuglink.C92_by_name",
    "Verif.Debuglink.C92_by_id_partial",
    "Verif.Debuglink.C92_right",
    "Verif.Debuglink.C92_descriptors_partial",
    "Verif.Debuglink.C92_twice_violation",
    "Verif.Debuglink.C92_closed_violation",
    "Verif.Debuglink.C92_sign_violation",
    "Verif.Debuglink.C92_errno_violation",
    "Verif.Debuglink.C92_hidden_violation",
    "Verif.Debuglink.C92_noid_violation",
    "Verif.Debuglink.C92_notdir_violation",
    "Verif.Debuglink.C92_root_violation"
   ],
   "note": "The search by name is exact for every path and file system; only right files are returned, for arbitrary strings. The search by ID is exact when the first element has no second sign, errno is 0 before and links fail with ENOENT only. Violations: double close, closed descriptor, second sign, stale errno, a wrong file hiding the right one, alternate files of modules without ID, ENOTDIR, files in the root directory."
  },
  {
   "property": "C93",
   "status": "partial",
   "theorems": [
    "Verif.Modcu.C93_next_partial",
    "Verif.Modcu.C93_walk_partial",
    "Verif.Modcu.C93_same_partial",
    "Verif.Modcu.C93_addr_partial",
    "Verif.Modcu.C93_outside_partial",
    "Verif.Modcu.C93_getsrc_partial",
    "Verif.Modcu.C93_tiny_violation",
    "Verif.Modcu.C93_abort_violation",
    "Verif.Modcu.C93_history_violation",
    "Verif.Modcu.C93_same_violation",
    "Verif.Modcu.C93_top_violation",
    "Verif.Modcu.C93_end_violation"
   ],
   "note": "Proved for modules whose last unit has at least five bytes of entries (otherwise the unit is not shown, an assertion can fail and the result depends on the history: violations), and ranges that are sorted, disjoint, and end below 2^64 (violation for the top). The end address of the last range is accepted (violation). A gap is given to the range before it, as the code documents."
  },
  {
   "property": "C94",
   "status": "partial",
   "theorems": [
    "Verif.Srcfile.C94_lines_partial",
    "Verif.Srcfile.C94_module_partial",
    "Verif.Srcfile.C94_limit_partial",
    "Verif.Srcfile.C94_safe",
    "Verif.Srcfile.C94_module_safe",
    "Verif.Srcfile.C94_stale_violation",
    "Verif.Srcfile.C94_nodie_violation",
    "Verif.Srcfile.C94_again_violation",
    "Verif.Srcfile.C94_leak_violation",
    "Verif.Srcfile.C94_broken_violation",
    "Verif.Srcfile.C94_twice_violation",
    "Verif.Srcfile.C94_column_violation",
    "Verif.Srcfile.C94_nolines_violation"
   ],
   "note": "Proved for valid line tables, with no error pending, for libdwfl if each unit has a line table; safety, the limit and soundness of each line returned are proved for any tables. Violations: stale error number, units without DIE, bad tables (first call fails, second succeeds), lost array, invalid unit header reported as no match, shared tables listed twice, column with line 0, units without line table end the search of a module."
  },
  {
   "property": "C95",
   "status": "partial",
   "theorems": [
    "Verif.Linetab.C95_lines_partial",
    "Verif.Linetab.C95_safe_partial",
    "Verif.Linetab.C95_time_violation",
    "Verif.Linetab.C95_strx_violation",
    "Verif.Linetab.C95_empty_violation",
    "Verif.Linetab.C95_count_violation",
    "Verif.Linetab.C95_terminator_violation",
    "Verif.Linetab.C95_offset_violation"
   ],
   "note": "Proved for every header with the allowed forms in any order, every number of entries and every program: rows in order, files with directories (C95_lines_partial); safety and termination for arbitrary sections followed by a zero byte with terminated string sections (C95_safe_partial). Missing: times and sizes (the code reports 0), paths by index (the code takes the header of the table of string offsets for offsets), sections of 4 GiB, and what C34 misses. Violations: times and sizes, index base, empty table reported as one file, number of files read behind the unit, unterminated string sections, string offset equal to the size of .debug_str."
  },
  {
   "property": "C96",
   "status": "partial",
   "theorems": [
    "Verif.Symtab.C96_symbols_partial",
    "Verif.Symtab.C96_once",
    "Verif.Symtab.C96_zero_violation",
    "Verif.Symtab.C96_dangling_violation",
    "Verif.Symtab.C96_first_violation",
    "Verif.Symtab.C96_negative_violation",
    "Verif.Symtab.C96_null_violation",
    "Verif.Symtab.C96_mask_violation",
    "Verif.Symtab.C96_thumb_violation",
    "Verif.Symtab.C96_compressed_violation",
    "Verif.Symtab.C96_discard_violation"
   ],
   "note": "Proved for every module with well-formed tables, after every sequence of calls; the order and completeness by C96_once. Missing: masks of function addresses (ARM), embedded tables that declare their empty symbol global, and damaged embedded or compressed tables, for which the violations show wrong answers, use of freed memory and NULL dereferences."
  },
  {
   "property": "C97",
   "status": "partial",
   "theorems": [
    "Verif.Dynsym.C97_symbols_partial",
    "Verif.Dynsym.C97_module_partial",
    "Verif.Dynsym.C97_safe",
    "Verif.Dynsym.C97_buckets_violation",
    "Verif.Dynsym.C97_empty_violation",
    "Verif.Dynsym.C97_unset_violation",
    "Verif.Dynsym.C97_header_violation"
   ],
   "note": "For files with a well-formed dynamic section (unique readable PT_DYNAMIC, disjoint segments, nothing but the file header at offset 0, no address taken for unset), tables at offsets other than 0 and, if DT_GNU_HASH alone says the number, a table with hashed symbols whose first number is below the number of buckets: C97_symbols_partial gives exactly the symbols and strings, for addresses of the file and moved ones, C97_module_partial (with C96) what dwfl_module_getsymtab and dwfl_module_getsym report; C97_safe holds for every file. The four violations show why the restrictions are needed: the code ignores usable GNU hash tables, walks past an empty one, takes address 0 for a table and reads symbols from the header of the file."
  },
  {
   "property": "C98",
   "status": "partial",
   "theorems": [
    "Verif.Core.C98_read_partial",
    "Verif.Core.C98_string_partial",
    "Verif.Core.C98_word_partial",
    "Verif.Core.C98_short_violation",
    "Verif.Core.C98_order_violation",
    "Verif.Core.C98_gap_violation",
    "Verif.Core.C98_align_violation",
    "Verif.Core.C98_large_violation",
    "Verif.Core.C98_string_violation",
    "Verif.Core.C98_start_violation",
    "Verif.Core.C98_undumped_violation",
    "Verif.Core.C98_across_violation",
    "Verif.Core.C98_unaligned_violation"
   ],
   "note": "For core files as Linux writes them (segments of whole pages, in the same order in file and memory, not cut off at the end) and addresses in a segment: C98_read_partial (soundness, size, and failure exactly if memory is missing, for mapped files of any request and unmapped ones if the request is at most 4096 bytes or fits into the announced buffer), C98_string_partial (mapped files), C98_word_partial (words within one segment; nothing else if all segments are in the file as a whole). The ten violations show what happens otherwise: short results without an error, bytes that are no memory, failures although the memory is there."
  },
  {
   "property": "C99",
   "status": "partial",
   "theorems": [
    "Verif.Corethr.C99_attach_partial",
    "Verif.Corethr.C99_threads_partial",
    "Verif.Corethr.C99_one_partial",
    "Verif.Corethr.C99_registers_partial",
    "Verif.Corethr.C99_zero_violation",
    "Verif.Corethr.C99_negative_violation",
    "Verif.Corethr.C99_nested_violation",
    "Verif.Corethr.C99_skip_violation"
   ],
   "note": "Proved for notes up to 2^32 - 8 bytes, threads with positive TIDs and callbacks that do not go over threads themselves; registers for x86_64. Fails for TID 0 (ends the iteration), negative TIDs (taken for an error) and callbacks that look at another thread (threads skipped, or an endless loop)."
  }
 ]
}