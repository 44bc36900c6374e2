# Which lines of /repo are modelled

Generated by `tools/coverage.py` from the citations in the comments of `lean/Verif/Model`.  Line ranges less than five lines apart are joined.  Lines between functions, file headers and debug output are not cited.

| File | Lines | Model | Lines cited |
|---|---|---|---|
| insn16/libexec/libexec_debug.c | 873 | Debugger | 132-343, 348-354, 359-420, 425-451, 468-569, 589-606, 626-632, 638-726, 732-871 |
| insn16/libexec/libexec_float.c | 373 | FloatOps | 81-125, 147-373 |
| insn16/libexec/libexec_heap.c | 816 | Heap, Strings | 59-63, 98-122, 276-713, 721-816 |
| insn16/libexec/libexec_load.c | 158 | Chain, PoffOwn, Prun, Toolchain | 57-158 |
| insn16/libexec/libexec_longops.c | 668 | LongOps | 53-58, 74-81, 91-98, 108-115, 125-132, 142-495, 505-661 |
| insn16/libexec/libexec_oslib.c | 476 | Heap, Library | 87-475 |
| insn16/libexec/libexec_run.c | 1602 | Init, Library, Opcodes, PoffOwn, VM | 91-98, 121-210, 228-261, 272-688, 698-741, 751-1137, 1147-1362, 1372-1450, 1456-1513, 1519-1580, 1585-1602 |
| insn16/libexec/libexec_runloop.c | 82 | VM | 60-72 |
| insn16/libexec/libexec_setops.c | 567 | SetOps | 99-103, 109-362, 376-567 |
| insn16/libexec/libexec_stringlib.c | 1714 | Convert, Strings | 89-412, 430-1676, 1683-1713 |
| insn16/libexec/libexec_sysio.c | 2120 | IoState, SysIo | 168-209, 219-857, 874-994, 999-1031, 1036-1067, 1072-1103, 1108-1202, 1208-1239, 1249-2120 |
| insn16/libinsn/insn_addopcode.c | 91 | Insn, Opcodes | 54-82 |
| insn16/libinsn/insn_addtmpopcode.c | 91 | Insn | 52-80 |
| insn16/libinsn/insn_disasm.c | 693 | Disasm | 63-693 |
| insn16/libinsn/insn_dislongop.c | 256 | Disasm | 88-157, 168-193, 202-256 |
| insn16/libinsn/insn_generate.c | 319 | Compile, Disasm, Insn | 155-180, 191-204, 246-268 |
| insn16/libinsn/insn_genlongop.c | 215 | Compile, Disasm, Insn | 148-160, 168-214 |
| insn16/libinsn/insn_getopcode.c | 130 | Insn, Opcodes, Optimize | 64-130 |
| insn16/libinsn/insn_relocate.c | 160 | Insn | 57-160 |
| insn16/plist/plist.c | 383 | Disasm, LineTable | 215-294 |
| insn16/popt/popt.c | 202 | Chain, PoffOwn, Toolchain | 86-202 |
| insn16/popt/popt_branch.c | 563 | Optimize, Peephole | 63-556 |
| insn16/popt/popt_constants.c | 1384 | Optimize, Peephole | 69-613, 632-1381 |
| insn16/popt/popt_finalize.c | 605 | Chain, Finalize, LabelTab, PoffOwn | 103-488, 497-605 |
| insn16/popt/popt_loadstore.c | 423 | Optimize, Peephole | 70-136, 150-302, 314-420 |
| insn16/popt/popt_local.c | 143 | Optimize, PoffOwn | 64-143 |
| insn16/popt/popt_longconst.c | 1249 | Optimize | 59-64, 83-781, 799-1246 |
| insn16/popt/popt_peephole.c | 519 | Optimize, Peephole, PoffOwn | 64-67, 89-213, 221-348, 412-447, 454-458, 466-471, 479-491, 499-505, 512-519 |
| insn16/popt/popt_reloc.c | 126 | PoffMem, PoffOwn | 55-64, 73-126 |
| insn16/popt/popt_strconst.c | 220 | Optimize | 112-171, 195-210 |
| insn16/popt/popt_strings.c | 90 | Optimize, PoffOwn | 61-90 |
| insn16/popt/popt_util.c | 130 | Optimize, Peephole | 55-72, 77-130 |
| insn16/prun/prun.c | 289 | Prun | 51-54, 60-69, 77-89, 137-285 |
| libpas/pbasename.c | 62 | FileName | 46-62 |
| libpas/pextension.c | 132 | FileName | 50-132 |
| libpas/psignextend16.c | 57 | VM | 52-56 |
| libpas/psignextend8.c | 56 | VM | 52-56 |
| libpas/pswap.c | 60 | Poff | 50-58 |
| libpoff/pfdbgcontainer.c | 85 | – | none |
| libpoff/pfdbgdiscard.c | 73 | Chain, PoffOwn | 53-72 |
| libpoff/pfdbginfo.c | 141 | Poff | 62-99 |
| libpoff/pfdhdr.c | 174 | – | none |
| libpoff/pfdlineno.c | 75 | – | none |
| libpoff/pfdreloc.c | 88 | RelocDump | 55-60, 66-87 |
| libpoff/pfdsymbol.c | 98 | SymDump | 55-62, 68-98 |
| libpoff/pfdtreloc.c | 88 | RelocDump | 55-60, 66-87 |
| libpoff/pfhandle.c | 173 | PoffFile, PoffMem, PoffOwn | 56-118, 123-156 |
| libpoff/pfiprog.c | 76 | PoffMem, PoffOwn | 60-75 |
| libpoff/pfirodata.c | 102 | Chain, PoffMem, PoffOwn | 76-101 |
| libpoff/pflabel.c | 283 | Finalize, LabelTab | 66-78, 84-90, 106-198, 208-282 |
| libpoff/pflineno.c | 342 | LineTable, Poff | 96-117, 193-326 |
| libpoff/pfproghandle.c | 106 | PoffMem, PoffOwn | 58-105 |
| libpoff/pfrdbgfunc.c | 110 | Poff | 60-110 |
| libpoff/pfread.c | 348 | PoffFile, PoffMem, PoffOwn | 73-109, 114-348 |
| libpoff/pfrelease.c | 93 | PoffOwn | 75-92 |
| libpoff/pfreloc.c | 94 | PoffFile | 68-94 |
| libpoff/pfrelochandle.c | 106 | PoffMem, PoffOwn | 58-106 |
| libpoff/pfrfname.c | 96 | PoffFile | 60-96 |
| libpoff/pfrhdr.c | 101 | PoffFile | 88-92 |
| libpoff/pfrlineno.c | 115 | LineTable | 68-114 |
| libpoff/pfrprog.c | 74 | Insn, PoffFile | 55-73 |
| libpoff/pfrrawlineno.c | 90 | PoffFile | 60-90 |
| libpoff/pfrseek.c | 99 | – | none |
| libpoff/pfrstring.c | 74 | Link, Poff | 60-73 |
| libpoff/pfrsymbol.c | 91 | PoffFile | 60-91 |
| libpoff/pfswap.c | 234 | PoffFile | 52-234 |
| libpoff/pfsymhandle.c | 107 | PoffOwn | 58-106 |
| libpoff/pftgetreloc.c | 95 | PoffMem | 60-95 |
| libpoff/pftprog.c | 208 | PoffMem, PoffOwn | 56-103, 111-207 |
| libpoff/pftreloc.c | 185 | Chain, PoffMem, PoffOwn | 60-87, 95-185 |
| libpoff/pftsymbol.c | 168 | Chain, PoffMem, PoffOwn | 63-167 |
| libpoff/pfwdbgfunc.c | 157 | Poff, PoffFile | 57-105, 115-157 |
| libpoff/pfwfname.c | 125 | PoffFile, PoffMem | 64-125 |
| libpoff/pfwhdr.c | 95 | PoffFile | 61-85, 90-95 |
| libpoff/pfwlineno.c | 148 | Chain, PoffFile, PoffMem | 58-105, 116-148 |
| libpoff/pfwprog.c | 107 | PoffFile, PoffMem | 58-106 |
| libpoff/pfwreloc.c | 145 | PoffFile, PoffMem, PoffOwn | 58-103, 114-145 |
| libpoff/pfwrite.c | 528 | Chain, PoffFile, PoffMem | 67-95, 150-515, 522-527 |
| libpoff/pfwrodata.c | 176 | Compile, PoffFile, PoffMem | 59-108, 147-176 |
| libpoff/pfwstring.c | 197 | Poff, PoffFile, PoffMem | 64-98, 106-196 |
| libpoff/pfwsymbol.c | 131 | PoffFile, PoffMem | 63-131 |
| libpoff/pfxprog.c | 79 | PoffOwn | 60-78 |
| libpoff/pfxrodata.c | 78 | PoffOwn | 60-77 |
| libpoff/pofferr.c | 93 | – | none |
| papps/pstart/pstart_main.c | 130 | – | none |
| pascal/pas_block.c | 3464 | Block, ConstExpr, Names | 194-247, 340-535, 541-848, 909-955, 960-1186, 1312-1640, 1675-1893, 2371-2432, 2902-2930, 2955-3098, 3105-3260, 3269-3291, 3345-3370, 3375-3464 |
| pascal/pas_codegen.c | 584 | Compile | 83-145, 156-159, 164-167, 267-307, 573-576 |
| pascal/pas_constexpr.c | 1049 | ConstExpr | 64-67, 92-93, 181-187, 196-1049 |
| pascal/pas_constfunc.c | 360 | ConstExpr | 82-253 |
| pascal/pas_error.c | 216 | Block, Compile, ConstExpr, Token | 164-195 |
| pascal/pas_expression.c | 4599 | Compile | 158-1233, 1699-1745, 1846-2120, 2210-2240, 3476-3495, 3503-4163, 4168-4190, 4196-4317, 4481-4516, 4559-4570 |
| pascal/pas_initializer.c | 616 | Block | 187-232, 498-513 |
| pascal/pas_main.c | 526 | Block, Chain, Source, Toolchain | 376-428 |
| pascal/pas_procedure.c | 2899 | Compile | 160-372, 415-537, 565-595, 609-665, 988-1392, 2512-2534, 2602-2899 |
| pascal/pas_program.c | 303 | Block | 72-165 |
| pascal/pas_statement.c | 2349 | Block, Compile | 159-164, 205-214, 270-560, 956-1030, 1040-1052, 1283-1294, 1346-1362, 1457-2054, 2211-2334 |
| pascal/pas_stdfunc.c | 1385 | Compile | 126-140, 228-230, 244-265, 308-310, 324-327, 1061-1309, 1372-1377 |
| pascal/pas_symtable.c | 890 | Block, Names | 107-221, 234-240, 246-377, 410-436, 535-555, 571-600, 609-735 |
| pascal/pas_token.c | 1084 | Block, Compile, ConstExpr, Names, Source, Token | 77-94, 102-225, 230-647, 706-754, 765-1084 |
| pascal/pas_unit.c | 627 | – | none |
| plink/plink.c | 534 | Chain, Insn, Link, PoffOwn | 120-124, 137-341, 348-382, 390-454, 491-534 |
| plink/plreloc.c | 258 | LabelTab, Link, PoffOwn | 88-185, 191-209, 214-255 |
| plink/plsym.c | 485 | Chain, Link, LinkFree | 70-76, 82-88, 104-434, 443-484 |
| tools/mkconfig.c | 296 | MkConfig | 71-136, 142-254, 260-296 |
