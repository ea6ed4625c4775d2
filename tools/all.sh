#!/bin/sh
# Regenerates the derived files.
cd /verif && python3 tools/mkprops.py && python3 tools/mkmanifest.py && python3 tools/mkroot.py && python3 tools/mkaudit.py && python3 tools/mkroot.py
