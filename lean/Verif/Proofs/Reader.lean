import Verif.Model.Insn

/-! The reader table as rewrite rules, one per opcode. -/
namespace Verif.VM

set_option maxRecDepth 20000

theorem reader_1 : reader (BitVec.toNat (1 : Cell)) = (a1 fun a => .load .pri a.toInt) := by rfl
theorem reader_2 : reader (BitVec.toNat (2 : Cell)) = (a1 fun a => .load .alt a.toInt) := by rfl
theorem reader_3 : reader (BitVec.toNat (3 : Cell)) = (a1 fun a => .loadS .pri a.toInt) := by rfl
theorem reader_4 : reader (BitVec.toNat (4 : Cell)) = (a1 fun a => .loadS .alt a.toInt) := by rfl
theorem reader_7 : reader (BitVec.toNat (7 : Cell)) = (a1 fun a => .lrefS .pri a.toInt) := by rfl
theorem reader_8 : reader (BitVec.toNat (8 : Cell)) = (a1 fun a => .lrefS .alt a.toInt) := by rfl
theorem reader_9 : reader (BitVec.toNat (9 : Cell)) = (z .loadI) := by rfl
theorem reader_10 : reader (BitVec.toNat (10 : Cell)) = (a1 fun a => .lodbI a.toInt) := by rfl
theorem reader_11 : reader (BitVec.toNat (11 : Cell)) = (a1 fun a => .const .pri a) := by rfl
theorem reader_12 : reader (BitVec.toNat (12 : Cell)) = (a1 fun a => .const .alt a) := by rfl
theorem reader_13 : reader (BitVec.toNat (13 : Cell)) = (a1 fun a => .addr .pri a.toInt) := by rfl
theorem reader_14 : reader (BitVec.toNat (14 : Cell)) = (a1 fun a => .addr .alt a.toInt) := by rfl
theorem reader_15 : reader (BitVec.toNat (15 : Cell)) = (a1 fun a => .stor a.toInt .pri) := by rfl
theorem reader_16 : reader (BitVec.toNat (16 : Cell)) = (a1 fun a => .stor a.toInt .alt) := by rfl
theorem reader_17 : reader (BitVec.toNat (17 : Cell)) = (a1 fun a => .storS a.toInt .pri) := by rfl
theorem reader_18 : reader (BitVec.toNat (18 : Cell)) = (a1 fun a => .storS a.toInt .alt) := by rfl
theorem reader_19 : reader (BitVec.toNat (19 : Cell)) = (a2 fun a b => .storSC a.toInt b) := by rfl
theorem reader_21 : reader (BitVec.toNat (21 : Cell)) = (a1 fun a => .srefS a.toInt .pri) := by rfl
theorem reader_22 : reader (BitVec.toNat (22 : Cell)) = (a1 fun a => .srefS a.toInt .alt) := by rfl
theorem reader_23 : reader (BitVec.toNat (23 : Cell)) = (z .storI) := by rfl
theorem reader_24 : reader (BitVec.toNat (24 : Cell)) = (a1 fun a => .strbI a.toInt) := by rfl
theorem reader_25 : reader (BitVec.toNat (25 : Cell)) = (z .lidx) := by rfl
theorem reader_27 : reader (BitVec.toNat (27 : Cell)) = (z .idxaddr) := by rfl
theorem reader_33 : reader (BitVec.toNat (33 : Cell)) = (z (.move .pri)) := by rfl
theorem reader_34 : reader (BitVec.toNat (34 : Cell)) = (z (.move .alt)) := by rfl
theorem reader_35 : reader (BitVec.toNat (35 : Cell)) = (z .xchg) := by rfl
theorem reader_36 : reader (BitVec.toNat (36 : Cell)) = (z (.push .pri)) := by rfl
theorem reader_37 : reader (BitVec.toNat (37 : Cell)) = (z (.push .alt)) := by rfl
theorem reader_39 : reader (BitVec.toNat (39 : Cell)) = (an 1 .pushC) := by rfl
theorem reader_40 : reader (BitVec.toNat (40 : Cell)) = (an 1 .pushA) := by rfl
theorem reader_41 : reader (BitVec.toNat (41 : Cell)) = (an 1 .pushS) := by rfl
theorem reader_42 : reader (BitVec.toNat (42 : Cell)) = (z (.pop .pri)) := by rfl
theorem reader_43 : reader (BitVec.toNat (43 : Cell)) = (z (.pop .alt)) := by rfl
theorem reader_44 : reader (BitVec.toNat (44 : Cell)) = (a1 fun a => .stack a.toInt) := by rfl
theorem reader_45 : reader (BitVec.toNat (45 : Cell)) = (a1 fun a => .heap a.toInt) := by rfl
theorem reader_46 : reader (BitVec.toNat (46 : Cell)) = (z .proc) := by rfl
theorem reader_48 : reader (BitVec.toNat (48 : Cell)) = (z .retn) := by rfl
theorem reader_49 : reader (BitVec.toNat (49 : Cell)) = (a1 fun a => .call a.toInt) := by rfl
theorem reader_51 : reader (BitVec.toNat (51 : Cell)) = (a1 fun a => .jump a.toInt) := by rfl
theorem reader_53 : reader (BitVec.toNat (53 : Cell)) = (a1 fun a => .jcmp .zero a.toInt) := by rfl
theorem reader_54 : reader (BitVec.toNat (54 : Cell)) = (a1 fun a => .jcmp .notZero a.toInt) := by rfl
theorem reader_55 : reader (BitVec.toNat (55 : Cell)) = (a1 fun a => .jcmp .eq a.toInt) := by rfl
theorem reader_56 : reader (BitVec.toNat (56 : Cell)) = (a1 fun a => .jcmp .neq a.toInt) := by rfl
theorem reader_61 : reader (BitVec.toNat (61 : Cell)) = (a1 fun a => .jcmp .sless a.toInt) := by rfl
theorem reader_62 : reader (BitVec.toNat (62 : Cell)) = (a1 fun a => .jcmp .sleq a.toInt) := by rfl
theorem reader_63 : reader (BitVec.toNat (63 : Cell)) = (a1 fun a => .jcmp .sgrtr a.toInt) := by rfl
theorem reader_64 : reader (BitVec.toNat (64 : Cell)) = (a1 fun a => .jcmp .sgeq a.toInt) := by rfl
theorem reader_65 : reader (BitVec.toNat (65 : Cell)) = (z .shl) := by rfl
theorem reader_66 : reader (BitVec.toNat (66 : Cell)) = (z .shr) := by rfl
theorem reader_67 : reader (BitVec.toNat (67 : Cell)) = (z .sshr) := by rfl
theorem reader_68 : reader (BitVec.toNat (68 : Cell)) = (a1 fun a => .shlC .pri a.toInt) := by rfl
theorem reader_69 : reader (BitVec.toNat (69 : Cell)) = (a1 fun a => .shlC .alt a.toInt) := by rfl
theorem reader_72 : reader (BitVec.toNat (72 : Cell)) = (z .smul) := by rfl
theorem reader_73 : reader (BitVec.toNat (73 : Cell)) = (z (.sdiv .pri)) := by rfl
theorem reader_74 : reader (BitVec.toNat (74 : Cell)) = (z (.sdiv .alt)) := by rfl
theorem reader_75 : reader (BitVec.toNat (75 : Cell)) = (z .sdivAltI32) := by rfl
theorem reader_76 : reader (BitVec.toNat (76 : Cell)) = (z .smodAltI32) := by rfl
theorem reader_78 : reader (BitVec.toNat (78 : Cell)) = (z .add) := by rfl
theorem reader_79 : reader (BitVec.toNat (79 : Cell)) = (z .sub) := by rfl
theorem reader_80 : reader (BitVec.toNat (80 : Cell)) = (z .subAlt) := by rfl
theorem reader_81 : reader (BitVec.toNat (81 : Cell)) = (z .and) := by rfl
theorem reader_82 : reader (BitVec.toNat (82 : Cell)) = (z .or) := by rfl
theorem reader_83 : reader (BitVec.toNat (83 : Cell)) = (z .xor) := by rfl
theorem reader_84 : reader (BitVec.toNat (84 : Cell)) = (z .not) := by rfl
theorem reader_85 : reader (BitVec.toNat (85 : Cell)) = (z .neg) := by rfl
theorem reader_86 : reader (BitVec.toNat (86 : Cell)) = (z .invert) := by rfl
theorem reader_87 : reader (BitVec.toNat (87 : Cell)) = (a1 .addC) := by rfl
theorem reader_88 : reader (BitVec.toNat (88 : Cell)) = (a1 .smulC) := by rfl
theorem reader_89 : reader (BitVec.toNat (89 : Cell)) = (z (.zero .pri)) := by rfl
theorem reader_90 : reader (BitVec.toNat (90 : Cell)) = (z (.zero .alt)) := by rfl
theorem reader_91 : reader (BitVec.toNat (91 : Cell)) = (a1 fun a => .zeroA a.toInt) := by rfl
theorem reader_92 : reader (BitVec.toNat (92 : Cell)) = (a1 fun a => .zeroS a.toInt) := by rfl
theorem reader_93 : reader (BitVec.toNat (93 : Cell)) = (a1 fun a => .zeroSI64 a.toInt) := by rfl
theorem reader_95 : reader (BitVec.toNat (95 : Cell)) = (z (.cmp .eq)) := by rfl
theorem reader_96 : reader (BitVec.toNat (96 : Cell)) = (z (.cmp .neq)) := by rfl
theorem reader_101 : reader (BitVec.toNat (101 : Cell)) = (z (.cmp .sless)) := by rfl
theorem reader_102 : reader (BitVec.toNat (102 : Cell)) = (z (.cmp .sleq)) := by rfl
theorem reader_103 : reader (BitVec.toNat (103 : Cell)) = (z (.cmp .sgrtr)) := by rfl
theorem reader_104 : reader (BitVec.toNat (104 : Cell)) = (z (.cmp .sgeq)) := by rfl
theorem reader_105 : reader (BitVec.toNat (105 : Cell)) = (a1 (.eqC .pri)) := by rfl
theorem reader_106 : reader (BitVec.toNat (106 : Cell)) = (a1 (.eqC .alt)) := by rfl
theorem reader_107 : reader (BitVec.toNat (107 : Cell)) = (z (.inc .pri)) := by rfl
theorem reader_108 : reader (BitVec.toNat (108 : Cell)) = (z (.inc .alt)) := by rfl
theorem reader_109 : reader (BitVec.toNat (109 : Cell)) = (a1 fun a => .incA a.toInt) := by rfl
theorem reader_110 : reader (BitVec.toNat (110 : Cell)) = (a1 fun a => .incS a.toInt) := by rfl
theorem reader_111 : reader (BitVec.toNat (111 : Cell)) = (z .incI) := by rfl
theorem reader_112 : reader (BitVec.toNat (112 : Cell)) = (z (.dec .pri)) := by rfl
theorem reader_113 : reader (BitVec.toNat (113 : Cell)) = (z (.dec .alt)) := by rfl
theorem reader_114 : reader (BitVec.toNat (114 : Cell)) = (a1 fun a => .decA a.toInt) := by rfl
theorem reader_115 : reader (BitVec.toNat (115 : Cell)) = (a1 fun a => .decS a.toInt) := by rfl
theorem reader_116 : reader (BitVec.toNat (116 : Cell)) = (z .decI) := by rfl
theorem reader_117 : reader (BitVec.toNat (117 : Cell)) = (a1 fun a => .movs a.toInt) := by rfl
theorem reader_119 : reader (BitVec.toNat (119 : Cell)) = (a1 fun a => .fill a.toInt) := by rfl
theorem reader_120 : reader (BitVec.toNat (120 : Cell)) = (a1 .halt) := by rfl
theorem reader_121 : reader (BitVec.toNat (121 : Cell)) = (a1 fun a => .bounds a.toInt) := by rfl
theorem reader_123 : reader (BitVec.toNat (123 : Cell)) = (a1 fun a => .sysreqC a.toInt) := by rfl
theorem reader_129 : reader (BitVec.toNat (129 : Cell)) = (a1 fun a => .switch a.toInt) := by rfl
theorem reader_131 : reader (BitVec.toNat (131 : Cell)) = (z (.swap .pri)) := by rfl
theorem reader_132 : reader (BitVec.toNat (132 : Cell)) = (z (.swap .alt)) := by rfl
theorem reader_133 : reader (BitVec.toNat (133 : Cell)) = (an 1 .pushAdr) := by rfl
theorem reader_134 : reader (BitVec.toNat (134 : Cell)) = (z .nop) := by rfl
theorem reader_135 : reader (BitVec.toNat (135 : Cell)) = (a2 fun a b => .sysreqN a.toInt b.toInt) := by rfl
theorem reader_137 : reader (BitVec.toNat (137 : Cell)) = (z .brk) := by rfl
theorem reader_138 : reader (BitVec.toNat (138 : Cell)) = (an 2 .pushC) := by rfl
theorem reader_139 : reader (BitVec.toNat (139 : Cell)) = (an 2 .pushA) := by rfl
theorem reader_140 : reader (BitVec.toNat (140 : Cell)) = (an 2 .pushS) := by rfl
theorem reader_141 : reader (BitVec.toNat (141 : Cell)) = (an 2 .pushAdr) := by rfl
theorem reader_142 : reader (BitVec.toNat (142 : Cell)) = (an 3 .pushC) := by rfl
theorem reader_143 : reader (BitVec.toNat (143 : Cell)) = (an 3 .pushA) := by rfl
theorem reader_144 : reader (BitVec.toNat (144 : Cell)) = (an 3 .pushS) := by rfl
theorem reader_145 : reader (BitVec.toNat (145 : Cell)) = (an 3 .pushAdr) := by rfl
theorem reader_146 : reader (BitVec.toNat (146 : Cell)) = (an 4 .pushC) := by rfl
theorem reader_147 : reader (BitVec.toNat (147 : Cell)) = (an 4 .pushA) := by rfl
theorem reader_148 : reader (BitVec.toNat (148 : Cell)) = (an 4 .pushS) := by rfl
theorem reader_149 : reader (BitVec.toNat (149 : Cell)) = (an 4 .pushAdr) := by rfl
theorem reader_150 : reader (BitVec.toNat (150 : Cell)) = (an 5 .pushC) := by rfl
theorem reader_151 : reader (BitVec.toNat (151 : Cell)) = (an 5 .pushA) := by rfl
theorem reader_152 : reader (BitVec.toNat (152 : Cell)) = (an 5 .pushS) := by rfl
theorem reader_153 : reader (BitVec.toNat (153 : Cell)) = (an 5 .pushAdr) := by rfl
theorem reader_154 : reader (BitVec.toNat (154 : Cell)) = (a2 fun a b => .loadBoth a.toInt b.toInt) := by rfl
theorem reader_155 : reader (BitVec.toNat (155 : Cell)) = (a2 fun a b => .loadSBoth a.toInt b.toInt) := by rfl
theorem reader_156 : reader (BitVec.toNat (156 : Cell)) = (a2 fun a b => .constA a.toInt b) := by rfl
theorem reader_157 : reader (BitVec.toNat (157 : Cell)) = (a2 fun a b => .constS a.toInt b) := by rfl
theorem reader_160 : reader (BitVec.toNat (160 : Cell)) = (a1 fun a => .trackPushC a.toInt) := by rfl
theorem reader_161 : reader (BitVec.toNat (161 : Cell)) = (z .trackPop) := by rfl
theorem reader_162 : reader (BitVec.toNat (162 : Cell)) = (a1 fun a => .genarray a.toInt false) := by rfl
theorem reader_163 : reader (BitVec.toNat (163 : Cell)) = (a1 fun a => .genarray a.toInt true) := by rfl
theorem reader_164 : reader (BitVec.toNat (164 : Cell)) = (z .stradjust) := by rfl
theorem reader_166 : reader (BitVec.toNat (166 : Cell)) = (z .endproc) := by rfl
theorem reader_169 : reader (BitVec.toNat (169 : Cell)) = (a5 fun a b c d e => .initarray .pri a.toInt b.toInt c.toInt d.toInt e) := by rfl
theorem reader_170 : reader (BitVec.toNat (170 : Cell)) = (a5 fun a b c d e => .initarray .alt a.toInt b.toInt c.toInt d.toInt e) := by rfl
theorem reader_171 : reader (BitVec.toNat (171 : Cell)) = (z .heapSave) := by rfl
theorem reader_172 : reader (BitVec.toNat (172 : Cell)) = (z .heapRestore) := by rfl
theorem reader_173 : reader (BitVec.toNat (173 : Cell)) = (z .testF32) := by rfl
theorem reader_174 : reader (BitVec.toNat (174 : Cell)) = (z .negF32) := by rfl
theorem reader_175 : reader (BitVec.toNat (175 : Cell)) = (z (.binF32 .mul)) := by rfl
theorem reader_176 : reader (BitVec.toNat (176 : Cell)) = (z (.binF32 .divAlt)) := by rfl
theorem reader_177 : reader (BitVec.toNat (177 : Cell)) = (z (.binF32 .add)) := by rfl
theorem reader_178 : reader (BitVec.toNat (178 : Cell)) = (z (.binF32 .subAlt)) := by rfl
theorem reader_179 : reader (BitVec.toNat (179 : Cell)) = (z (.cmpF32 .eq)) := by rfl
theorem reader_180 : reader (BitVec.toNat (180 : Cell)) = (z (.cmpF32 .neq)) := by rfl
theorem reader_181 : reader (BitVec.toNat (181 : Cell)) = (z (.cmpF32 .sless)) := by rfl
theorem reader_182 : reader (BitVec.toNat (182 : Cell)) = (z (.cmpF32 .sleq)) := by rfl
theorem reader_183 : reader (BitVec.toNat (183 : Cell)) = (z (.cmpF32 .sgrtr)) := by rfl
theorem reader_184 : reader (BitVec.toNat (184 : Cell)) = (z (.cmpF32 .sgeq)) := by rfl
theorem reader_185 : reader (BitVec.toNat (185 : Cell)) = (z .cvtF32) := by rfl
theorem reader_186 : reader (BitVec.toNat (186 : Cell)) = (z (.binF32 .modAlt)) := by rfl
theorem reader_192 : reader (BitVec.toNat (192 : Cell)) = (z .moveI64) := by rfl
theorem reader_193 : reader (BitVec.toNat (193 : Cell)) = (z .pushII64) := by rfl
theorem reader_194 : reader (BitVec.toNat (194 : Cell)) = (a1 fun a => .cvtI64 a.toInt) := by rfl
theorem reader_195 : reader (BitVec.toNat (195 : Cell)) = (z .truncI64) := by rfl
theorem reader_196 : reader (BitVec.toNat (196 : Cell)) = (z .testI64) := by rfl
theorem reader_197 : reader (BitVec.toNat (197 : Cell)) = (a1 fun a => .invertI64 a.toInt) := by rfl
theorem reader_198 : reader (BitVec.toNat (198 : Cell)) = (a1 fun a => .negI64 a.toInt) := by rfl
theorem reader_199 : reader (BitVec.toNat (199 : Cell)) = (a1 fun a => .bin64 .smul a.toInt) := by rfl
theorem reader_200 : reader (BitVec.toNat (200 : Cell)) = (a1 fun a => .bin64 .sdivAlt a.toInt) := by rfl
theorem reader_201 : reader (BitVec.toNat (201 : Cell)) = (a1 fun a => .bin64 .add a.toInt) := by rfl
theorem reader_202 : reader (BitVec.toNat (202 : Cell)) = (a1 fun a => .bin64 .subAlt a.toInt) := by rfl
theorem reader_203 : reader (BitVec.toNat (203 : Cell)) = (a1 fun a => .bin64 .shl a.toInt) := by rfl
theorem reader_204 : reader (BitVec.toNat (204 : Cell)) = (a1 fun a => .bin64 .sshr a.toInt) := by rfl
theorem reader_205 : reader (BitVec.toNat (205 : Cell)) = (a1 fun a => .bin64 .shr a.toInt) := by rfl
theorem reader_206 : reader (BitVec.toNat (206 : Cell)) = (z (.cmp64 .eq)) := by rfl
theorem reader_207 : reader (BitVec.toNat (207 : Cell)) = (z (.cmp64 .neq)) := by rfl
theorem reader_208 : reader (BitVec.toNat (208 : Cell)) = (a1 fun a => .bin64 .or a.toInt) := by rfl
theorem reader_209 : reader (BitVec.toNat (209 : Cell)) = (a1 fun a => .bin64 .and a.toInt) := by rfl
theorem reader_210 : reader (BitVec.toNat (210 : Cell)) = (a1 fun a => .bin64 .xor a.toInt) := by rfl
theorem reader_211 : reader (BitVec.toNat (211 : Cell)) = (a3 fun a b c => .storSCI64 a.toInt b c) := by rfl
theorem reader_212 : reader (BitVec.toNat (212 : Cell)) = (z (.cmp64 .sless)) := by rfl
theorem reader_213 : reader (BitVec.toNat (213 : Cell)) = (z (.cmp64 .sleq)) := by rfl
theorem reader_214 : reader (BitVec.toNat (214 : Cell)) = (z (.cmp64 .sgrtr)) := by rfl
theorem reader_215 : reader (BitVec.toNat (215 : Cell)) = (z (.cmp64 .sgeq)) := by rfl
theorem reader_216 : reader (BitVec.toNat (216 : Cell)) = (a1 fun a => .bin64 .smodAlt a.toInt) := by rfl
theorem reader_217 : reader (BitVec.toNat (217 : Cell)) = (a1 fun a => .storSPriI64 a.toInt) := by rfl

/-- All of the above. -/
macro "rdr" : tactic => `(tactic| simp only [
  reader_1, reader_2, reader_3, reader_4, reader_7, reader_8, reader_9, reader_10, reader_11, reader_12, reader_13, reader_14, reader_15, reader_16, reader_17, reader_18, reader_19, reader_21, reader_22, reader_23, reader_24, reader_25, reader_27, reader_33, reader_34, reader_35, reader_36, reader_37, reader_39, reader_40, reader_41, reader_42, reader_43, reader_44, reader_45, reader_46, reader_48, reader_49, reader_51, reader_53, reader_54, reader_55, reader_56, reader_61, reader_62, reader_63, reader_64, reader_65, reader_66, reader_67, reader_68, reader_69, reader_72, reader_73, reader_74, reader_75, reader_76, reader_78, reader_79, reader_80, reader_81, reader_82, reader_83, reader_84, reader_85, reader_86, reader_87, reader_88, reader_89, reader_90, reader_91, reader_92, reader_93, reader_95, reader_96, reader_101, reader_102, reader_103, reader_104, reader_105, reader_106, reader_107, reader_108, reader_109, reader_110, reader_111, reader_112, reader_113, reader_114, reader_115, reader_116, reader_117, reader_119, reader_120, reader_121, reader_123, reader_129, reader_131, reader_132, reader_133, reader_134, reader_135, reader_137, reader_138, reader_139, reader_140, reader_141, reader_142, reader_143, reader_144, reader_145, reader_146, reader_147, reader_148, reader_149, reader_150, reader_151, reader_152, reader_153, reader_154, reader_155, reader_156, reader_157, reader_160, reader_161, reader_162, reader_163, reader_164, reader_166, reader_169, reader_170, reader_171, reader_172, reader_173, reader_174, reader_175, reader_176, reader_177, reader_178, reader_179, reader_180, reader_181, reader_182, reader_183, reader_184, reader_185, reader_186, reader_192, reader_193, reader_194, reader_195, reader_196, reader_197, reader_198, reader_199, reader_200, reader_201, reader_202, reader_203, reader_204, reader_205, reader_206, reader_207, reader_208, reader_209, reader_210, reader_211, reader_212, reader_213, reader_214, reader_215, reader_216, reader_217])

end Verif.VM
