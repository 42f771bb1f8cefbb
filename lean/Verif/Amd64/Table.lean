import Verif.Amd64.Types
/-! The instruction table of `/repo/src/binary/encoding/amd64/opcode.c:13-522`, in the order in which
`amd64_opcode_init` (opcode.c:550-883) registers its rows.  Each row cites the line that defines it.
The table was transcribed mechanically; the one row that nobody registers (`movsq`) is absent. -/
namespace Nature.Amd64

/-- Rows 1-60 in registration order (opcode.c:550-883). -/
def rows1 : List Row := [
  ⟨.lea, 0x00, [0x8d], [.rexW, .slashR], [(.r64, .reg), (.m, .rm)]⟩,  -- lea_r64_m, opcode.c:241
  ⟨.syscall_inst, 0x00, [0x0f, 0x05], [], []⟩,  -- syscall_inst, opcode.c:246
  ⟨.call, 0x00, [0xff], [.slash 2], [(.rm64, .rm)]⟩,  -- call_rm64, opcode.c:13
  ⟨.call, 0x00, [0xe8], [.immD], [(.rel32, .imm)]⟩,  -- call_rel32, opcode.c:18
  ⟨.jmp, 0x00, [0xeb], [.immB], [(.rel8, .imm)]⟩,  -- jmp_rel8, opcode.c:20
  ⟨.jmp, 0x00, [0xe9], [.immD], [(.rel32, .imm)]⟩,  -- jmp_rel32, opcode.c:22
  ⟨.je, 0x00, [0x74], [.immB], [(.rel8, .imm)]⟩,  -- je_rel8, opcode.c:24
  ⟨.je, 0x00, [0x0f, 0x84], [.immD], [(.rel32, .imm)]⟩,  -- je_rel32, opcode.c:26
  ⟨.jne, 0x00, [0x75], [.immB], [(.rel8, .imm)]⟩,  -- jne_rel8, opcode.c:29
  ⟨.jne, 0x00, [0x0f, 0x85], [.immD], [(.rel32, .imm)]⟩,  -- jne_rel32, opcode.c:31
  ⟨.ja, 0x00, [0x77], [.immB], [(.rel8, .imm)]⟩,  -- ja_rel8, opcode.c:34
  ⟨.ja, 0x00, [0x0f, 0x87], [.immD], [(.rel32, .imm)]⟩,  -- ja_rel32, opcode.c:36
  ⟨.jae, 0x00, [0x73], [.immB], [(.rel8, .imm)]⟩,  -- jae_rel8, opcode.c:39
  ⟨.jae, 0x00, [0x0f, 0x83], [.immD], [(.rel32, .imm)]⟩,  -- jae_rel32, opcode.c:41
  ⟨.jb, 0x00, [0x72], [.immB], [(.rel8, .imm)]⟩,  -- jb_rel8, opcode.c:44
  ⟨.jb, 0x00, [0x0f, 0x82], [.immD], [(.rel32, .imm)]⟩,  -- jb_rel32, opcode.c:46
  ⟨.jbe, 0x00, [0x76], [.immB], [(.rel8, .imm)]⟩,  -- jbe_rel8, opcode.c:49
  ⟨.jbe, 0x00, [0x0f, 0x86], [.immD], [(.rel32, .imm)]⟩,  -- jbe_rel32, opcode.c:51
  ⟨.jg, 0x00, [0x7f], [.immB], [(.rel8, .imm)]⟩,  -- jg_rel8, opcode.c:54
  ⟨.jg, 0x00, [0x0f, 0x8f], [.immD], [(.rel32, .imm)]⟩,  -- jg_rel32, opcode.c:56
  ⟨.jge, 0x00, [0x7d], [.immB], [(.rel8, .imm)]⟩,  -- jge_rel8, opcode.c:59
  ⟨.jge, 0x00, [0x0f, 0x8d], [.immD], [(.rel32, .imm)]⟩,  -- jge_rel32, opcode.c:61
  ⟨.jl, 0x00, [0x7c], [.immB], [(.rel8, .imm)]⟩,  -- jl_rel8, opcode.c:64
  ⟨.jl, 0x00, [0x0f, 0x8c], [.immD], [(.rel32, .imm)]⟩,  -- jl_rel32, opcode.c:66
  ⟨.jle, 0x00, [0x7e], [.immB], [(.rel8, .imm)]⟩,  -- jle_rel8, opcode.c:69
  ⟨.jle, 0x00, [0x0f, 0x8e], [.immD], [(.rel32, .imm)]⟩,  -- jle_rel32, opcode.c:71
  ⟨.ret, 0x00, [0xc3], [], []⟩,  -- ret, opcode.c:249
  ⟨.push, 0x00, [0xff], [.slash 6], [(.rm64, .rm)]⟩,  -- push_rm64, opcode.c:253
  ⟨.push, 0x00, [0x50], [], [(.r64, .plus)]⟩,  -- push_r64, opcode.c:251
  ⟨.pop, 0x00, [0x58], [], [(.r64, .plus)]⟩,  -- pop_r64, opcode.c:255
  ⟨.pop, 0x00, [0x8f], [.slash 0], [(.rm64, .rm)]⟩,  -- pop_rm64, opcode.c:257
  ⟨.add, 0x00, [0x80], [.rex, .slash 0, .immB], [(.rm8, .rm), (.imm8, .imm)]⟩,  -- add_rex_rm8_imm8, opcode.c:163
  ⟨.add, 0x00, [0x80], [.slash 0, .immB], [(.rm8, .rm), (.imm8, .imm)]⟩,  -- add_rm8_imm8, opcode.c:162
  ⟨.add, 0x66, [0x81], [.slash 0, .immW], [(.rm16, .rm), (.imm16, .imm)]⟩,  -- add_rm16_imm16, opcode.c:164
  ⟨.add, 0x00, [0x81], [.slash 0, .immD], [(.rm32, .rm), (.imm32, .imm)]⟩,  -- add_rm32_imm32, opcode.c:165
  ⟨.add, 0x00, [0x81], [.rexW, .slash 0, .immD], [(.rm64, .rm), (.imm32, .imm)]⟩,  -- add_rm64_imm32, opcode.c:166
  ⟨.add, 0x00, [0x00], [.rex, .slashR], [(.rm8, .rm), (.r8, .reg)]⟩,  -- add_rex_rm8_r8, opcode.c:168
  ⟨.add, 0x00, [0x00], [.slashR], [(.rm8, .rm), (.r8, .reg)]⟩,  -- add_rm8_r8, opcode.c:167
  ⟨.add, 0x66, [0x01], [.slashR], [(.rm16, .rm), (.r16, .reg)]⟩,  -- add_rm16_r16, opcode.c:169
  ⟨.add, 0x00, [0x01], [.slashR], [(.rm32, .rm), (.r32, .reg)]⟩,  -- add_rm32_r32, opcode.c:170
  ⟨.add, 0x00, [0x01], [.rexW, .slashR], [(.rm64, .rm), (.r64, .reg)]⟩,  -- add_rm64_r64, opcode.c:171
  ⟨.add, 0x00, [0x02], [.rex, .slashR], [(.r8, .reg), (.rm8, .rm)]⟩,  -- add_rex_r8_rm8, opcode.c:173
  ⟨.add, 0x00, [0x02], [.slashR], [(.r8, .reg), (.rm8, .rm)]⟩,  -- add_r8_rm8, opcode.c:172
  ⟨.add, 0x66, [0x03], [.slashR], [(.r16, .reg), (.rm16, .rm)]⟩,  -- add_r16_rm16, opcode.c:174
  ⟨.add, 0x00, [0x03], [.slashR], [(.r32, .reg), (.rm32, .rm)]⟩,  -- add_r32_rm32, opcode.c:175
  ⟨.add, 0x00, [0x03], [.rexW, .slashR], [(.r64, .reg), (.rm64, .rm)]⟩,  -- add_r64_rm64, opcode.c:176
  ⟨.sub, 0x00, [0x80], [.rex, .slash 5, .immB], [(.rm8, .rm), (.imm8, .imm)]⟩,  -- sub_rex_rm8_imm8, opcode.c:180
  ⟨.sub, 0x00, [0x80], [.slash 5, .immB], [(.rm8, .rm), (.imm8, .imm)]⟩,  -- sub_rm8_imm8, opcode.c:179
  ⟨.sub, 0x66, [0x81], [.slash 5, .immW], [(.rm16, .rm), (.imm16, .imm)]⟩,  -- sub_rm16_imm16, opcode.c:181
  ⟨.sub, 0x00, [0x81], [.slash 5, .immD], [(.rm32, .rm), (.imm32, .imm)]⟩,  -- sub_rm32_imm32, opcode.c:182
  ⟨.sub, 0x00, [0x81], [.rexW, .slash 5, .immD], [(.rm64, .rm), (.imm32, .imm)]⟩,  -- sub_rm64_imm32, opcode.c:183
  ⟨.sub, 0x00, [0x28], [.rex, .slashR], [(.rm8, .rm), (.r8, .reg)]⟩,  -- sub_rex_rm8_r8, opcode.c:185
  ⟨.sub, 0x00, [0x28], [.slashR], [(.rm8, .rm), (.r8, .reg)]⟩,  -- sub_rm8_r8, opcode.c:184
  ⟨.sub, 0x66, [0x29], [.slashR], [(.rm16, .rm), (.r16, .reg)]⟩,  -- sub_rm16_r16, opcode.c:186
  ⟨.sub, 0x00, [0x29], [.slashR], [(.rm32, .rm), (.r32, .reg)]⟩,  -- sub_rm32_r32, opcode.c:187
  ⟨.sub, 0x00, [0x29], [.rexW, .slashR], [(.rm64, .rm), (.r64, .reg)]⟩,  -- sub_rm64_r64, opcode.c:188
  ⟨.sub, 0x00, [0x2a], [.rex, .slashR], [(.r8, .reg), (.rm8, .rm)]⟩,  -- sub_rex_r8_rm8, opcode.c:190
  ⟨.sub, 0x00, [0x2a], [.slashR], [(.r8, .reg), (.rm8, .rm)]⟩,  -- sub_r8_rm8, opcode.c:189
  ⟨.sub, 0x66, [0x2b], [.slashR], [(.r16, .reg), (.rm16, .rm)]⟩,  -- sub_r16_rm16, opcode.c:191
  ⟨.sub, 0x00, [0x2b], [.slashR], [(.r32, .reg), (.rm32, .rm)]⟩]  -- sub_r32_rm32, opcode.c:192

/-- Rows 61-120 in registration order (opcode.c:550-883). -/
def rows2 : List Row := [
  ⟨.sub, 0x00, [0x2b], [.rexW, .slashR], [(.r64, .reg), (.rm64, .rm)]⟩,  -- sub_r64_rm64, opcode.c:193
  ⟨.idiv, 0x00, [0xf6], [.rex, .slash 7], [(.rm8, .rm)]⟩,  -- idiv_rex_rm8, opcode.c:76
  ⟨.idiv, 0x00, [0xf6], [.slash 7], [(.rm8, .rm)]⟩,  -- idiv_rm8, opcode.c:73
  ⟨.idiv, 0x66, [0xf7], [.slash 7], [(.rm16, .rm)]⟩,  -- idiv_rm16, opcode.c:79
  ⟨.idiv, 0x00, [0xf7], [.slash 7], [(.rm32, .rm)]⟩,  -- idiv_rm32, opcode.c:82
  ⟨.idiv, 0x00, [0xf7], [.rexW, .slash 7], [(.rm64, .rm)]⟩,  -- idiv_rm64, opcode.c:85
  ⟨.div, 0x00, [0xf6], [.rex, .slash 6], [(.rm8, .rm)]⟩,  -- div_rex_rm8, opcode.c:92
  ⟨.div, 0x00, [0xf6], [.slash 6], [(.rm8, .rm)]⟩,  -- div_rm8, opcode.c:89
  ⟨.div, 0x66, [0xf7], [.slash 6], [(.rm16, .rm)]⟩,  -- div_rm16, opcode.c:95
  ⟨.div, 0x00, [0xf7], [.slash 6], [(.rm32, .rm)]⟩,  -- div_rm32, opcode.c:98
  ⟨.div, 0x00, [0xf7], [.rexW, .slash 6], [(.rm64, .rm)]⟩,  -- div_rm64, opcode.c:101
  ⟨.imul, 0x00, [0xf6], [.slash 5], [(.rm8, .rm)]⟩,  -- imul_rm8, opcode.c:106
  ⟨.imul, 0x66, [0xf7], [.slash 5], [(.rm16, .rm)]⟩,  -- imul_rm16, opcode.c:109
  ⟨.imul, 0x00, [0xf7], [.slash 5], [(.rm32, .rm)]⟩,  -- imul_rm32, opcode.c:112
  ⟨.imul, 0x00, [0xf7], [.rexW, .slash 5], [(.rm64, .rm)]⟩,  -- imul_rm64, opcode.c:115
  ⟨.imul, 0x66, [0x0f, 0xaf], [.slashR], [(.r16, .reg), (.rm16, .rm)]⟩,  -- imul_r16_rm16, opcode.c:124
  ⟨.imul, 0x00, [0x0f, 0xaf], [.slashR], [(.r32, .reg), (.rm32, .rm)]⟩,  -- imul_r32_rm32, opcode.c:125
  ⟨.imul, 0x00, [0x0f, 0xaf], [.rexW, .slashR], [(.r64, .reg), (.rm64, .rm)]⟩,  -- imul_r64_rm64, opcode.c:126
  ⟨.imul, 0x66, [0x6b], [.slashR, .immB], [(.r16, .reg), (.rm16, .rm), (.imm8, .imm)]⟩,  -- imul_r16_rm16_imm8, opcode.c:132
  ⟨.imul, 0x00, [0x6b], [.slashR, .immB], [(.r32, .reg), (.rm32, .rm), (.imm8, .imm)]⟩,  -- imul_r32_rm32_imm8, opcode.c:133
  ⟨.imul, 0x00, [0x6b], [.rexW, .slashR, .immB], [(.r64, .reg), (.rm64, .rm), (.imm8, .imm)]⟩,  -- imul_r64_rm64_imm8, opcode.c:134
  ⟨.imul, 0x66, [0x69], [.slashR, .immW], [(.r16, .reg), (.rm16, .rm), (.imm16, .imm)]⟩,  -- imul_r16_rm16_imm16, opcode.c:139
  ⟨.imul, 0x00, [0x69], [.slashR, .immD], [(.r32, .reg), (.rm32, .rm), (.imm32, .imm)]⟩,  -- imul_r32_rm32_imm32, opcode.c:140
  ⟨.imul, 0x00, [0x69], [.rexW, .slashR, .immD], [(.r64, .reg), (.rm64, .rm), (.imm32, .imm)]⟩,  -- imul_r64_rm64_imm32, opcode.c:141
  ⟨.mul, 0x00, [0xf6], [.rex, .slash 4], [(.rm8, .rm)]⟩,  -- mul_rex_rm8, opcode.c:148
  ⟨.mul, 0x00, [0xf6], [.slash 4], [(.rm8, .rm)]⟩,  -- mul_rm8, opcode.c:145
  ⟨.mul, 0x66, [0xf7], [.slash 4], [(.rm16, .rm)]⟩,  -- mul_rm16, opcode.c:151
  ⟨.mul, 0x00, [0xf7], [.slash 4], [(.rm32, .rm)]⟩,  -- mul_rm32, opcode.c:154
  ⟨.mul, 0x00, [0xf7], [.rexW, .slash 4], [(.rm64, .rm)]⟩,  -- mul_rm64, opcode.c:157
  ⟨.mov, 0x00, [0x88], [.rex, .slashR], [(.rm8, .rm), (.r8, .reg)]⟩,  -- mov_rex_rm8_r8, opcode.c:201
  ⟨.mov, 0x00, [0x88], [.slashR], [(.rm8, .rm), (.r8, .reg)]⟩,  -- mov_rm8_r8, opcode.c:197
  ⟨.mov, 0x66, [0x89], [.slashR], [(.rm16, .rm), (.r16, .reg)]⟩,  -- mov_rm16_r16, opcode.c:205
  ⟨.mov, 0x00, [0x89], [.slashR], [(.rm32, .rm), (.r32, .reg)]⟩,  -- mov_rm32_r32, opcode.c:206
  ⟨.mov, 0x00, [0x89], [.rexW, .slashR], [(.rm64, .rm), (.r64, .reg)]⟩,  -- mov_rm64_r64, opcode.c:207
  ⟨.mov, 0x00, [0x8a], [.rex, .slashR], [(.r8, .reg), (.rm8, .rm)]⟩,  -- mov_rex_r8_rm8, opcode.c:212
  ⟨.mov, 0x00, [0x8a], [.slashR], [(.r8, .reg), (.rm8, .rm)]⟩,  -- mov_r8_rm8, opcode.c:210
  ⟨.mov, 0x66, [0x8b], [.slashR], [(.r16, .reg), (.rm16, .rm)]⟩,  -- mov_r16_rm16, opcode.c:214
  ⟨.mov, 0x00, [0x8b], [.rexW, .slashR], [(.r64, .reg), (.rm64, .rm)]⟩,  -- mov_r64_rm64, opcode.c:217
  ⟨.mov, 0x00, [0x8b], [.slashR], [(.r32, .reg), (.rm32, .rm)]⟩,  -- mov_r32_rm32, opcode.c:216
  ⟨.mov, 0x00, [0x8b], [.rexW, .slashR], [(.r64, .reg), (.seg64, .rm)]⟩,  -- mov_r64_seg, opcode.c:220
  ⟨.mov, 0x00, [0xb0], [.rex, .immB], [(.r8, .plus), (.imm8, .imm)]⟩,  -- mov_rex_r8_imm8, opcode.c:224
  ⟨.mov, 0x00, [0xb0], [.immB], [(.r8, .plus), (.imm8, .imm)]⟩,  -- mov_r8_imm8, opcode.c:223
  ⟨.mov, 0x66, [0xb8], [.immW], [(.r16, .plus), (.imm16, .imm)]⟩,  -- mov_r16_imm16, opcode.c:225
  ⟨.mov, 0x00, [0xb8], [.immD], [(.r32, .plus), (.imm32, .imm)]⟩,  -- mov_r32_imm32, opcode.c:226
  ⟨.mov, 0x00, [0xb8], [.rexW, .immQ], [(.r64, .plus), (.imm64, .imm)]⟩,  -- mov_r64_imm64, opcode.c:228
  ⟨.mov, 0x00, [0xc6], [.rex, .slash 0, .immB], [(.rm8, .rm), (.imm8, .imm)]⟩,  -- mov_rex_rm8_imm8, opcode.c:233
  ⟨.mov, 0x00, [0xc6], [.slash 0, .immB], [(.rm8, .rm), (.imm8, .imm)]⟩,  -- mov_rm8_imm8, opcode.c:232
  ⟨.mov, 0x66, [0xc7], [.slash 0, .immW], [(.rm16, .rm), (.imm16, .imm)]⟩,  -- mov_rm16_imm16, opcode.c:235
  ⟨.mov, 0x00, [0xc7], [.slash 0, .immD], [(.rm32, .rm), (.imm32, .imm)]⟩,  -- mov_rm32_imm32, opcode.c:237
  ⟨.mov, 0x00, [0xc7], [.rexW, .slash 0, .immD], [(.rm64, .rm), (.imm32, .imm)]⟩,  -- mov_rm64_imm32, opcode.c:239
  ⟨.cmp, 0x00, [0x80], [.rex, .slash 7, .immB], [(.rm8, .rm), (.imm8, .imm)]⟩,  -- cmp_rex_rm8_imm8, opcode.c:262
  ⟨.cmp, 0x00, [0x80], [.slash 7, .immB], [(.rm8, .rm), (.imm8, .imm)]⟩,  -- cmp_rm8_imm8, opcode.c:261
  ⟨.cmp, 0x66, [0x81], [.slash 7, .immW], [(.rm16, .rm), (.imm16, .imm)]⟩,  -- cmp_rm16_imm16, opcode.c:263
  ⟨.cmp, 0x00, [0x81], [.slash 7, .immD], [(.rm32, .rm), (.imm32, .imm)]⟩,  -- cmp_rm32_imm32, opcode.c:264
  ⟨.cmp, 0x00, [0x81], [.rexW, .slash 7, .immD], [(.rm64, .rm), (.imm32, .imm)]⟩,  -- cmp_rm64_imm32, opcode.c:265
  ⟨.cmp, 0x00, [0x38], [.rex, .slashR], [(.rm8, .rm), (.r8, .reg)]⟩,  -- cmp_rex_rm8_r8, opcode.c:267
  ⟨.cmp, 0x00, [0x38], [.slashR], [(.rm8, .rm), (.r8, .reg)]⟩,  -- cmp_rm8_r8, opcode.c:266
  ⟨.cmp, 0x66, [0x39], [.slashR], [(.rm16, .rm), (.r16, .reg)]⟩,  -- cmp_rm16_r16, opcode.c:268
  ⟨.cmp, 0x00, [0x39], [.slashR], [(.rm32, .rm), (.r32, .reg)]⟩,  -- cmp_rm32_r32, opcode.c:269
  ⟨.cmp, 0x00, [0x39], [.rexW, .slashR], [(.rm64, .rm), (.r64, .reg)]⟩]  -- cmp_rm64_r64, opcode.c:270

/-- Rows 121-180 in registration order (opcode.c:550-883). -/
def rows3 : List Row := [
  ⟨.cmp, 0x00, [0x3a], [.rex, .slashR], [(.r8, .reg), (.rm8, .rm)]⟩,  -- cmp_rex_r8_rm8, opcode.c:273
  ⟨.cmp, 0x00, [0x3a], [.slashR], [(.r8, .reg), (.rm8, .rm)]⟩,  -- cmp_r8_rm8, opcode.c:272
  ⟨.cmp, 0x66, [0x3b], [.slashR], [(.r16, .reg), (.rm16, .rm)]⟩,  -- cmp_r16_rm16, opcode.c:274
  ⟨.cmp, 0x00, [0x3b], [.slashR], [(.r32, .reg), (.rm32, .rm)]⟩,  -- cmp_r32_rm32, opcode.c:275
  ⟨.cmp, 0x00, [0x3b], [.rexW, .slashR], [(.r64, .reg), (.rm64, .rm)]⟩,  -- cmp_r64_rm64, opcode.c:276
  ⟨.test_, 0x00, [0x84], [.rex, .slashR], [(.rm8, .rm), (.r8, .reg)]⟩,  -- test_rex_rm8_r8, opcode.c:280
  ⟨.test_, 0x00, [0x84], [.slashR], [(.rm8, .rm), (.r8, .reg)]⟩,  -- test_rm8_r8, opcode.c:279
  ⟨.test_, 0x66, [0x85], [.slashR], [(.rm16, .rm), (.r16, .reg)]⟩,  -- test_rm16_r16, opcode.c:281
  ⟨.test_, 0x00, [0x85], [.slashR], [(.rm32, .rm), (.r32, .reg)]⟩,  -- test_rm32_r32, opcode.c:282
  ⟨.test_, 0x00, [0x85], [.rexW, .slashR], [(.rm64, .rm), (.r64, .reg)]⟩,  -- test_rm64_r64, opcode.c:283
  ⟨.seta, 0x00, [0x0f, 0x97], [.rex], [(.rm8, .rm)]⟩,  -- seta_rex_rm8, opcode.c:317
  ⟨.setae, 0x00, [0x0f, 0x93], [.rex], [(.rm8, .rm)]⟩,  -- setae_rex_rm8, opcode.c:318
  ⟨.setb, 0x00, [0x0f, 0x92], [.rex], [(.rm8, .rm)]⟩,  -- setb_rex_rm8, opcode.c:319
  ⟨.setbe, 0x00, [0x0f, 0x96], [.rex], [(.rm8, .rm)]⟩,  -- setbe_rex_rm8, opcode.c:320
  ⟨.setg, 0x00, [0x0f, 0x9f], [.rex], [(.rm8, .rm)]⟩,  -- setg_rex_rm8, opcode.c:321
  ⟨.setge, 0x00, [0x0f, 0x9d], [.rex], [(.rm8, .rm)]⟩,  -- setge_rex_rm8, opcode.c:322
  ⟨.setl, 0x00, [0x0f, 0x9c], [.rex], [(.rm8, .rm)]⟩,  -- setl_rex_rm8, opcode.c:323
  ⟨.setle, 0x00, [0x0f, 0x9e], [.rex], [(.rm8, .rm)]⟩,  -- setle_rex_rm8, opcode.c:324
  ⟨.sete, 0x00, [0x0f, 0x94], [.rex], [(.rm8, .rm)]⟩,  -- sete_rex_rm8, opcode.c:325
  ⟨.setne, 0x00, [0x0f, 0x95], [.rex], [(.rm8, .rm)]⟩,  -- setne_rex_rm8, opcode.c:326
  ⟨.seta, 0x00, [0x0f, 0x97], [], [(.rm8, .rm)]⟩,  -- seta_rm8, opcode.c:286
  ⟨.setae, 0x00, [0x0f, 0x93], [], [(.rm8, .rm)]⟩,  -- setae_rm8, opcode.c:287
  ⟨.cvtsi2ss, 0xf3, [0x0f, 0x2a], [.slashR], [(.xmm1s32, .reg), (.rm32, .rm)]⟩,  -- cvtsi2ss_xmm_rm32, opcode.c:289
  ⟨.cvtsi2ss, 0xf3, [0x0f, 0x2a], [.rexW, .slashR], [(.xmm1s32, .reg), (.rm64, .rm)]⟩,  -- cvtsi2ss_xmm_rm64, opcode.c:291
  ⟨.cvtsi2sd, 0xf2, [0x0f, 0x2a], [.slashR], [(.xmm1s64, .reg), (.rm32, .rm)]⟩,  -- cvtsi2sd_xmm_rm32, opcode.c:293
  ⟨.cvtsi2sd, 0xf2, [0x0f, 0x2a], [.rexW, .slashR], [(.xmm1s64, .reg), (.rm64, .rm)]⟩,  -- cvtsi2sd_xmm_rm64, opcode.c:295
  ⟨.cvttss2si, 0xf3, [0x0f, 0x2c], [.slashR], [(.r32, .reg), (.xmm2s32, .rm)]⟩,  -- cvttss2si_r32_xmm, opcode.c:297
  ⟨.cvttss2si, 0xf3, [0x0f, 0x2c], [.rexW, .slashR], [(.r64, .reg), (.xmm2s32, .rm)]⟩,  -- cvttss2si_r64_xmm, opcode.c:299
  ⟨.cvttsd2si, 0xf2, [0x0f, 0x2c], [.slashR], [(.r32, .reg), (.xmm2s64, .rm)]⟩,  -- cvttsd2si_r32_xmm, opcode.c:301
  ⟨.cvttsd2si, 0xf2, [0x0f, 0x2c], [.rexW, .slashR], [(.r64, .reg), (.xmm2s64, .rm)]⟩,  -- cvttsd2si_r64_xmm, opcode.c:303
  ⟨.cvtss2sd, 0xf3, [0x0f, 0x5a], [.slashR], [(.xmm1s64, .reg), (.xmm2s32, .rm)]⟩,  -- cvtss2sd_xmm_xmm, opcode.c:305
  ⟨.cvtsd2ss, 0xf2, [0x0f, 0x5a], [.slashR], [(.xmm1s32, .reg), (.xmm2s64, .rm)]⟩,  -- cvtsd2ss_xmm_xmm, opcode.c:307
  ⟨.setb, 0x00, [0x0f, 0x92], [], [(.rm8, .rm)]⟩,  -- setb_rm8, opcode.c:308
  ⟨.setbe, 0x00, [0x0f, 0x96], [], [(.rm8, .rm)]⟩,  -- setbe_rm8, opcode.c:309
  ⟨.setg, 0x00, [0x0f, 0x9f], [], [(.rm8, .rm)]⟩,  -- setg_rm8, opcode.c:310
  ⟨.setge, 0x00, [0x0f, 0x9d], [], [(.rm8, .rm)]⟩,  -- setge_rm8, opcode.c:311
  ⟨.setl, 0x00, [0x0f, 0x9c], [], [(.rm8, .rm)]⟩,  -- setl_rm8, opcode.c:312
  ⟨.setle, 0x00, [0x0f, 0x9e], [], [(.rm8, .rm)]⟩,  -- setle_rm8, opcode.c:313
  ⟨.sete, 0x00, [0x0f, 0x94], [], [(.rm8, .rm)]⟩,  -- sete_rm8, opcode.c:314
  ⟨.setne, 0x00, [0x0f, 0x95], [], [(.rm8, .rm)]⟩,  -- setne_rm8, opcode.c:315
  ⟨.neg, 0x00, [0xf6], [.rex, .slash 3], [(.rm8, .rm)]⟩,  -- neg_rex_rm8, opcode.c:331
  ⟨.neg, 0x00, [0xf6], [.slash 3], [(.rm8, .rm)]⟩,  -- neg_rm8, opcode.c:330
  ⟨.neg, 0x66, [0xf7], [.slash 3], [(.rm16, .rm)]⟩,  -- neg_rm16, opcode.c:332
  ⟨.neg, 0x00, [0xf7], [.slash 3], [(.rm32, .rm)]⟩,  -- neg_rm32, opcode.c:333
  ⟨.neg, 0x00, [0xf7], [.rexW, .slash 3], [(.rm64, .rm)]⟩,  -- neg_rm64, opcode.c:334
  ⟨.not_, 0x00, [0xf6], [.rex, .slash 2], [(.rm8, .rm)]⟩,  -- not_rex_rm8, opcode.c:338
  ⟨.not_, 0x00, [0xf6], [.slash 2], [(.rm8, .rm)]⟩,  -- not_rm8, opcode.c:337
  ⟨.not_, 0x66, [0xf7], [.slash 2], [(.rm16, .rm)]⟩,  -- not_rm16, opcode.c:339
  ⟨.not_, 0x00, [0xf7], [.slash 2], [(.rm32, .rm)]⟩,  -- not_rm32, opcode.c:340
  ⟨.not_, 0x00, [0xf7], [.rexW, .slash 2], [(.rm64, .rm)]⟩,  -- not_rm64, opcode.c:341
  ⟨.inc, 0x00, [0xfe], [.rex, .slash 0], [(.rm8, .rm)]⟩,  -- inc_rex_rm8, opcode.c:345
  ⟨.inc, 0x00, [0xfe], [.slash 0], [(.rm8, .rm)]⟩,  -- inc_rm8, opcode.c:344
  ⟨.inc, 0x66, [0xff], [.slash 0], [(.rm16, .rm)]⟩,  -- inc_rm16, opcode.c:346
  ⟨.inc, 0x00, [0xff], [.slash 0], [(.rm32, .rm)]⟩,  -- inc_rm32, opcode.c:347
  ⟨.inc, 0x00, [0xff], [.rexW, .slash 0], [(.rm64, .rm)]⟩,  -- inc_rm64, opcode.c:348
  ⟨.dec, 0x00, [0xfe], [.rex, .slash 1], [(.rm8, .rm)]⟩,  -- dec_rex_rm8, opcode.c:352
  ⟨.dec, 0x00, [0xfe], [.slash 1], [(.rm8, .rm)]⟩,  -- dec_rm8, opcode.c:351
  ⟨.dec, 0x66, [0xff], [.slash 1], [(.rm16, .rm)]⟩,  -- dec_rm16, opcode.c:353
  ⟨.dec, 0x00, [0xff], [.slash 1], [(.rm32, .rm)]⟩,  -- dec_rm32, opcode.c:354
  ⟨.dec, 0x00, [0xff], [.rexW, .slash 1], [(.rm64, .rm)]⟩]  -- dec_rm64, opcode.c:355

/-- Rows 181-240 in registration order (opcode.c:550-883). -/
def rows4 : List Row := [
  ⟨.xor_, 0x00, [0x80], [.rex, .slash 6, .immB], [(.rm8, .rm), (.imm8, .imm)]⟩,  -- xor_rex_rm8_imm8, opcode.c:359
  ⟨.xor_, 0x00, [0x80], [.slash 6, .immB], [(.rm8, .rm), (.imm8, .imm)]⟩,  -- xor_rm8_imm8, opcode.c:358
  ⟨.xor_, 0x66, [0x81], [.slash 6, .immW], [(.rm16, .rm), (.imm16, .imm)]⟩,  -- xor_rm16_imm16, opcode.c:360
  ⟨.xor_, 0x00, [0x81], [.slash 6, .immD], [(.rm32, .rm), (.imm32, .imm)]⟩,  -- xor_rm32_imm32, opcode.c:361
  ⟨.xor_, 0x00, [0x81], [.rexW, .slash 6, .immD], [(.rm64, .rm), (.imm32, .imm)]⟩,  -- xor_rm64_imm32, opcode.c:362
  ⟨.xor_, 0x00, [0x30], [.rex, .slashR], [(.rm8, .rm), (.r8, .reg)]⟩,  -- xor_rex_rm8_r8, opcode.c:364
  ⟨.xor_, 0x00, [0x30], [.slashR], [(.rm8, .rm), (.r8, .reg)]⟩,  -- xor_rm8_r8, opcode.c:363
  ⟨.xor_, 0x66, [0x31], [.slashR], [(.rm16, .rm), (.r16, .reg)]⟩,  -- xor_rm16_r16, opcode.c:365
  ⟨.xor_, 0x00, [0x31], [.slashR], [(.rm32, .rm), (.r32, .reg)]⟩,  -- xor_rm32_r32, opcode.c:366
  ⟨.xor_, 0x00, [0x31], [.rexW, .slashR], [(.rm64, .rm), (.r64, .reg)]⟩,  -- xor_rm64_r64, opcode.c:367
  ⟨.xor_, 0x00, [0x32], [.rex, .slashR], [(.r8, .reg), (.rm8, .rm)]⟩,  -- xor_rex_r8_rm8, opcode.c:369
  ⟨.xor_, 0x00, [0x32], [.slashR], [(.r8, .reg), (.rm8, .rm)]⟩,  -- xor_r8_rm8, opcode.c:368
  ⟨.xor_, 0x66, [0x33], [.slashR], [(.r16, .reg), (.rm16, .rm)]⟩,  -- xor_r16_rm16, opcode.c:370
  ⟨.xor_, 0x00, [0x33], [.slashR], [(.r32, .reg), (.rm32, .rm)]⟩,  -- xor_r32_rm32, opcode.c:371
  ⟨.xor_, 0x00, [0x33], [.rexW, .slashR], [(.r64, .reg), (.rm64, .rm)]⟩,  -- xor_r64_rm64, opcode.c:372
  ⟨.or_, 0x00, [0x80], [.rex, .slash 1, .immB], [(.rm8, .rm), (.imm8, .imm)]⟩,  -- or_rex_rm8_imm8, opcode.c:376
  ⟨.or_, 0x00, [0x80], [.slash 1, .immB], [(.rm8, .rm), (.imm8, .imm)]⟩,  -- or_rm8_imm8, opcode.c:375
  ⟨.or_, 0x66, [0x81], [.slash 1, .immW], [(.rm16, .rm), (.imm16, .imm)]⟩,  -- or_rm16_imm16, opcode.c:377
  ⟨.or_, 0x00, [0x81], [.slash 1, .immD], [(.rm32, .rm), (.imm32, .imm)]⟩,  -- or_rm32_imm32, opcode.c:378
  ⟨.or_, 0x00, [0x81], [.rexW, .slash 1, .immD], [(.rm64, .rm), (.imm32, .imm)]⟩,  -- or_rm64_imm32, opcode.c:379
  ⟨.or_, 0x00, [0x08], [.rex, .slashR], [(.rm8, .rm), (.r8, .reg)]⟩,  -- or_rex_rm8_r8, opcode.c:381
  ⟨.or_, 0x00, [0x08], [.slashR], [(.rm8, .rm), (.r8, .reg)]⟩,  -- or_rm8_r8, opcode.c:380
  ⟨.or_, 0x66, [0x09], [.slashR], [(.rm16, .rm), (.r16, .reg)]⟩,  -- or_rm16_r16, opcode.c:382
  ⟨.or_, 0x00, [0x09], [.slashR], [(.rm32, .rm), (.r32, .reg)]⟩,  -- or_rm32_r32, opcode.c:383
  ⟨.or_, 0x00, [0x09], [.rexW, .slashR], [(.rm64, .rm), (.r64, .reg)]⟩,  -- or_rm64_r64, opcode.c:384
  ⟨.or_, 0x00, [0x0a], [.slashR], [(.r8, .reg), (.rm8, .rm)]⟩,  -- or_r8_rm8, opcode.c:385
  ⟨.or_, 0x00, [0x0a], [.rex, .slashR], [(.r8, .reg), (.rm8, .rm)]⟩,  -- or_rex_r8_rm8, opcode.c:386
  ⟨.or_, 0x66, [0x0b], [.slashR], [(.r16, .reg), (.rm16, .rm)]⟩,  -- or_r16_rm16, opcode.c:387
  ⟨.or_, 0x00, [0x0b], [.slashR], [(.r32, .reg), (.rm32, .rm)]⟩,  -- or_r32_rm32, opcode.c:388
  ⟨.or_, 0x00, [0x0b], [.rexW, .slashR], [(.r64, .reg), (.rm64, .rm)]⟩,  -- or_r64_rm64, opcode.c:389
  ⟨.and_, 0x00, [0x80], [.rex, .slash 4, .immB], [(.rm8, .rm), (.imm8, .imm)]⟩,  -- and_rex_rm8_imm8, opcode.c:393
  ⟨.and_, 0x00, [0x80], [.slash 4, .immB], [(.rm8, .rm), (.imm8, .imm)]⟩,  -- and_rm8_imm8, opcode.c:392
  ⟨.and_, 0x66, [0x81], [.slash 4, .immW], [(.rm16, .rm), (.imm16, .imm)]⟩,  -- and_rm16_imm16, opcode.c:394
  ⟨.and_, 0x00, [0x81], [.slash 4, .immD], [(.rm32, .rm), (.imm32, .imm)]⟩,  -- and_rm32_imm32, opcode.c:395
  ⟨.and_, 0x00, [0x81], [.rexW, .slash 4, .immD], [(.rm64, .rm), (.imm32, .imm)]⟩,  -- and_rm64_imm32, opcode.c:396
  ⟨.and_, 0x00, [0x20], [.rex, .slashR], [(.rm8, .rm), (.r8, .reg)]⟩,  -- and_rex_rm8_r8, opcode.c:398
  ⟨.and_, 0x00, [0x20], [.slashR], [(.rm8, .rm), (.r8, .reg)]⟩,  -- and_rm8_r8, opcode.c:397
  ⟨.and_, 0x66, [0x21], [.slashR], [(.rm16, .rm), (.r16, .reg)]⟩,  -- and_rm16_r16, opcode.c:399
  ⟨.and_, 0x00, [0x21], [.slashR], [(.rm32, .rm), (.r32, .reg)]⟩,  -- and_rm32_r32, opcode.c:400
  ⟨.and_, 0x00, [0x21], [.rexW, .slashR], [(.rm64, .rm), (.r64, .reg)]⟩,  -- and_rm64_r64, opcode.c:401
  ⟨.and_, 0x00, [0x22], [.rex, .slashR], [(.r8, .reg), (.rm8, .rm)]⟩,  -- and_rex_r8_rm8, opcode.c:403
  ⟨.and_, 0x00, [0x22], [.slashR], [(.r8, .reg), (.rm8, .rm)]⟩,  -- and_r8_rm8, opcode.c:402
  ⟨.and_, 0x66, [0x23], [.slashR], [(.r16, .reg), (.rm16, .rm)]⟩,  -- and_r16_rm16, opcode.c:404
  ⟨.and_, 0x00, [0x23], [.slashR], [(.r32, .reg), (.rm32, .rm)]⟩,  -- and_r32_rm32, opcode.c:405
  ⟨.and_, 0x00, [0x23], [.rexW, .slashR], [(.r64, .reg), (.rm64, .rm)]⟩,  -- and_r64_rm64, opcode.c:406
  ⟨.sal, 0x00, [0xd2], [.rex, .slash 4], [(.rm8, .rm), (.r8, .reg)]⟩,  -- sal_rex_rm8_cl, opcode.c:410
  ⟨.sal, 0x00, [0xd2], [.slash 4], [(.rm8, .rm), (.r8, .reg)]⟩,  -- sal_rm8_cl, opcode.c:409
  ⟨.sal, 0x66, [0xd3], [.slash 4], [(.rm16, .rm), (.r8, .reg)]⟩,  -- sal_rm16_cl, opcode.c:411
  ⟨.sal, 0x00, [0xd3], [.slash 4], [(.rm32, .rm), (.r8, .reg)]⟩,  -- sal_rm32_cl, opcode.c:412
  ⟨.sal, 0x00, [0xd3], [.rexW, .slash 4], [(.rm64, .rm), (.r8, .reg)]⟩,  -- sal_rm64_cl, opcode.c:413
  ⟨.sar, 0x00, [0xd2], [.rex, .slash 7], [(.rm8, .rm), (.r8, .reg)]⟩,  -- sar_rex_rm8_cl, opcode.c:416
  ⟨.sar, 0x00, [0xd2], [.slash 7], [(.rm8, .rm), (.r8, .reg)]⟩,  -- sar_rm8_cl, opcode.c:415
  ⟨.sar, 0x66, [0xd3], [.slash 7], [(.rm16, .rm), (.r8, .reg)]⟩,  -- sar_rm16_cl, opcode.c:417
  ⟨.sar, 0x00, [0xd3], [.slash 7], [(.rm32, .rm), (.r8, .reg)]⟩,  -- sar_rm32_cl, opcode.c:418
  ⟨.sar, 0x00, [0xd3], [.rexW, .slash 7], [(.rm64, .rm), (.r8, .reg)]⟩,  -- sar_rm64_cl, opcode.c:419
  ⟨.shr, 0x00, [0xd2], [.rex, .slash 5], [(.rm8, .rm), (.r8, .reg)]⟩,  -- shr_rex_rm8_cl, opcode.c:423
  ⟨.shr, 0x00, [0xd2], [.slash 5], [(.rm8, .rm), (.r8, .reg)]⟩,  -- shr_rm8_cl, opcode.c:422
  ⟨.shr, 0x66, [0xd3], [.slash 5], [(.rm16, .rm), (.r8, .reg)]⟩,  -- shr_rm16_cl, opcode.c:424
  ⟨.shr, 0x00, [0xd3], [.slash 5], [(.rm32, .rm), (.r8, .reg)]⟩,  -- shr_rm32_cl, opcode.c:425
  ⟨.shr, 0x00, [0xd3], [.rexW, .slash 5], [(.rm64, .rm), (.r8, .reg)]⟩]  -- shr_rm64_cl, opcode.c:426

/-- Rows 241-281 in registration order (opcode.c:550-883). -/
def rows5 : List Row := [
  ⟨.shr, 0x00, [0xc0], [.rex, .slash 5, .immB], [(.rm8, .rm), (.imm8, .imm)]⟩,  -- shr_rex_rm8_imm8, opcode.c:429
  ⟨.shr, 0x00, [0xc0], [.slash 5, .immB], [(.rm8, .rm), (.imm8, .imm)]⟩,  -- shr_rm8_imm8, opcode.c:428
  ⟨.shr, 0x66, [0xc1], [.slash 5, .immB], [(.rm16, .rm), (.imm8, .imm)]⟩,  -- shr_rm16_imm8, opcode.c:430
  ⟨.shr, 0x00, [0xc1], [.slash 5, .immB], [(.rm32, .rm), (.imm8, .imm)]⟩,  -- shr_rm32_imm8, opcode.c:431
  ⟨.shr, 0x00, [0xc1], [.rexW, .slash 5, .immB], [(.rm64, .rm), (.imm8, .imm)]⟩,  -- shr_rm64_imm8, opcode.c:432
  ⟨.mov, 0x00, [0x0f, 0x28], [.slashR], [(.xmm1s64, .reg), (.xmm2s64, .rm)]⟩,  -- movaps_xmm1_xmm2, opcode.c:445
  ⟨.mov, 0x00, [0x0f, 0x28], [.slashR], [(.xmm1s32, .reg), (.xmm2s32, .rm)]⟩,  -- movaps_xmm1_xmm2_f32, opcode.c:446
  ⟨.mov, 0x00, [0x0f, 0x29], [.slashR], [(.xmm2s64, .rm), (.xmm1s64, .reg)]⟩,  -- movaps_xmm2_xmm1, opcode.c:448
  ⟨.mov, 0x00, [0x0f, 0x29], [.slashR], [(.xmm2s32, .rm), (.xmm1s32, .reg)]⟩,  -- movaps_xmm2_xmm1_f32, opcode.c:449
  ⟨.movxmm128, 0x00, [0x0f, 0x10], [.slashR], [(.xmm1s64, .reg), (.m, .rm)]⟩,  -- movxmm128_load, opcode.c:453
  ⟨.movxmm128, 0x00, [0x0f, 0x11], [.slashR], [(.m, .rm), (.xmm1s64, .reg)]⟩,  -- movxmm128_store, opcode.c:461
  ⟨.mov, 0xf2, [0x0f, 0x10], [.slashR], [(.xmm1s64, .reg), (.m64, .rm)]⟩,  -- movsd_xmm1_m64, opcode.c:471
  ⟨.mov, 0xf2, [0x0f, 0x10], [.slashR], [(.xmm1s64, .reg), (.xmm2s64, .rm)]⟩,  -- movsd_xmm1_xmm2, opcode.c:470
  ⟨.mov, 0xf2, [0x0f, 0x11], [.slashR], [(.xmm1m64, .rm), (.xmm2s64, .reg)]⟩,  -- movsd_xmm1m64_xmm2, opcode.c:472
  ⟨.mov, 0xf3, [0x0f, 0x10], [.slashR], [(.xmm1s32, .reg), (.xmm2s32, .rm)]⟩,  -- movss_xmm1_xmm2, opcode.c:473
  ⟨.mov, 0xf3, [0x0f, 0x10], [.slashR], [(.xmm1s32, .reg), (.m32, .rm)]⟩,  -- movss_xmm1_m32, opcode.c:474
  ⟨.mov, 0xf3, [0x0f, 0x11], [.slashR], [(.xmm2m32, .rm), (.xmm1s32, .reg)]⟩,  -- movss_xmm2m32_xmm1, opcode.c:475
  ⟨.xor_, 0x00, [0x0f, 0x57], [.slashR], [(.xmm1s32, .reg), (.xmm2m32, .rm)]⟩,  -- xorps_xmm1_xmm2m128, opcode.c:438
  ⟨.xor_, 0x00, [0x66, 0x0f, 0x57], [.slashR], [(.xmm1s64, .reg), (.xmm2m64, .rm)]⟩,  -- xorpd_xmm1_xmm2m128, opcode.c:437
  ⟨.add, 0xf3, [0x0f, 0x58], [.slashR], [(.xmm1s32, .reg), (.xmm2m32, .rm)]⟩,  -- addss_xmm1_xmm2m32, opcode.c:479
  ⟨.add, 0xf2, [0x0f, 0x58], [.slashR], [(.xmm1s64, .reg), (.xmm2m64, .rm)]⟩,  -- addsd_xmm1_xmm2m64, opcode.c:478
  ⟨.sub, 0xf3, [0x0f, 0x5c], [.slashR], [(.xmm1s32, .reg), (.xmm2m32, .rm)]⟩,  -- subss_xmm1_xmm2m32, opcode.c:481
  ⟨.sub, 0xf2, [0x0f, 0x5c], [.slashR], [(.xmm1s64, .reg), (.xmm2m64, .rm)]⟩,  -- subsd_xmm1_xmm2m64, opcode.c:480
  ⟨.fmul, 0xf3, [0x0f, 0x59], [.slashR], [(.xmm1s32, .reg), (.xmm2m32, .rm)]⟩,  -- mulss_xmm1_xmm2m32, opcode.c:483
  ⟨.fmul, 0xf2, [0x0f, 0x59], [.slashR], [(.xmm1s64, .reg), (.xmm2m64, .rm)]⟩,  -- mulsd_xmm1_xmm2m64, opcode.c:482
  ⟨.fdiv, 0xf3, [0x0f, 0x5e], [.slashR], [(.xmm1s32, .reg), (.xmm2m32, .rm)]⟩,  -- divss_xmm1_xmm2m32, opcode.c:486
  ⟨.fdiv, 0xf2, [0x0f, 0x5e], [.slashR], [(.xmm1s64, .reg), (.xmm2m64, .rm)]⟩,  -- divsd_xmm1_xmm2m64, opcode.c:484
  ⟨.cmp, 0x00, [0x0f, 0x2f], [.slashR], [(.xmm1s32, .reg), (.xmm2m32, .rm)]⟩,  -- comiss, opcode.c:488
  ⟨.cmp, 0x66, [0x0f, 0x2f], [.slashR], [(.xmm1s64, .reg), (.xmm2m64, .rm)]⟩,  -- comisd, opcode.c:487
  ⟨.movsx, 0x66, [0x0f, 0xbe], [.slashR], [(.r16, .reg), (.rm8, .rm)]⟩,  -- movsx_r16_rm8, opcode.c:492
  ⟨.movsx, 0x00, [0x0f, 0xbe], [.slashR], [(.r32, .reg), (.rm8, .rm)]⟩,  -- movsx_r32_rm8, opcode.c:494
  ⟨.movsx, 0x00, [0x0f, 0xbe], [.rexW, .slashR], [(.r64, .reg), (.rm8, .rm)]⟩,  -- movsx_r64_rm8, opcode.c:496
  ⟨.movsx, 0x00, [0x0f, 0xbf], [.slashR], [(.r32, .reg), (.rm16, .rm)]⟩,  -- movsx_r32_rm16, opcode.c:498
  ⟨.movsx, 0x00, [0x0f, 0xbf], [.rexW, .slashR], [(.r64, .reg), (.rm16, .rm)]⟩,  -- movsx_r64_rm16, opcode.c:500
  ⟨.movsx, 0x00, [0x63], [.rexW, .slashR], [(.r64, .reg), (.rm32, .rm)]⟩,  -- movsx_r64_rm32, opcode.c:502
  ⟨.movzx, 0x66, [0x0f, 0xb6], [.slashR], [(.r16, .reg), (.rm8, .rm)]⟩,  -- movzx_r16_rm8, opcode.c:505
  ⟨.movzx, 0x00, [0x0f, 0xb6], [.slashR], [(.r32, .reg), (.rm8, .rm)]⟩,  -- movzx_r32_rm8, opcode.c:507
  ⟨.movzx, 0x00, [0x0f, 0xb6], [.rexW, .slashR], [(.r64, .reg), (.rm8, .rm)]⟩,  -- movzx_r64_rm8, opcode.c:509
  ⟨.movzx, 0x00, [0x0f, 0xb7], [.slashR], [(.r32, .reg), (.rm16, .rm)]⟩,  -- movzx_r32_rm16, opcode.c:511
  ⟨.movzx, 0x00, [0x0f, 0xb7], [.rexW, .slashR], [(.r64, .reg), (.rm16, .rm)]⟩,  -- movzx_r64_rm16, opcode.c:513
  ⟨.movzx, 0x00, [0x8b], [.slashR], [(.r64, .reg), (.rm32, .rm)]⟩]  -- movzx_r64_rm32, opcode.c:522

/-- All registered rows (opcode.c:550-883). -/
def rows : List Row := rows1 ++ rows2 ++ rows3 ++ rows4 ++ rows5

end Nature.Amd64
