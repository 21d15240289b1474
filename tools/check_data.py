#!/usr/bin/env python3
"""Compares the tables copied into Model/Lexicon.lean with the files in /repo, line by line (reads text only)."""
import re

SRC = open('/verif/lean/Verif/Model/Lexicon.lean').read()
DATA = '/repo/scrappybara/data/english/'
TABLES = {'irregularPreteritsLines': 'irregular_preterits.txt',
          'irregularPastParticiplesLines': 'irregular_past_participles.txt',
          'irregularPluralsLines': 'irregular_plurals.txt',
          'irregularComparativesLines': 'irregular_comparatives.txt',
          'irregularSuperlativesLines': 'irregular_superlatives.txt'}
for name, file in TABLES.items():
    body = re.search(r'def %s : List Str :=\n(.*?)\n\n' % name, SRC, re.S).group(1)
    rows = [r.replace('\\t', '\t') for r in re.findall(r'c!"([^"]*)"', body)]
    lines = open(DATA + file, encoding='utf-8').read().split('\n')
    if lines[-1] == '':
        lines.pop()
    print(name, len(rows), 'same' if rows == lines else 'DIFFERENT')
